import Verif.Lemmas.ElimMain
import Verif.Model.Skip
/-! `skip_var_elimination` keeps resolvents short. -/
namespace Splr
open Stk

theorem costLit_spec {elim : Nat → Bool} {l : Lit} : ∀ {q : Cls}, (∀ m ∈ q, elim m.var = false) →
    match costLit elim l q with | none => l.neg ∈ q | some true => l ∈ q | some false => True
  | [], _ => trivial
  | m :: c, h => by
    unfold costLit
    split
    · rename_i e
      split at e
      · rename_i h1; rw [h1]; simp
      · split at e
        · cases e
        · have := costLit_spec (elim := elim) (l := l) (q := c) fun m hm => h m (by simp [hm])
          rw [e] at this
          exact List.mem_cons_of_mem _ this
    · rename_i e
      split at e
      · cases e
      · split at e
        · rename_i h2
          rcases h2 with h2 | h2
          · rw [h2]; simp
          · rw [h m (by simp)] at h2; cases h2
        · have := costLit_spec (elim := elim) (l := l) (q := c) fun m hm => h m (by simp [hm])
          rw [e] at this
          exact List.mem_cons_of_mem _ this
    · trivial

theorem costLoop_spec {elim : Nat → Bool} {v : Nat} {q : Cls} (h : ∀ m ∈ q, elim m.var = false) : ∀ {p : Cls} {n : Nat},
    match costLoop elim v q p n with
    | none => ∃ l ∈ p, l.var ≠ v ∧ l.neg ∈ q
    | some m => n + (p.filter fun l => decide (l.var ≠ v ∧ l ∉ q)).length ≤ m
  | [], n => by simp [costLoop]
  | l :: c, n => by
    unfold costLoop
    split
    · rename_i e
      split at e
      · have := costLoop_spec (elim := elim) (v := v) h (p := c) (n := n)
        rw [e] at this
        obtain ⟨m, h1, h2⟩ := this
        exact ⟨m, by simp [h1], h2⟩
      · rename_i hv
        have hc := costLit_spec (l := l) h
        split at e
        · rename_i h1
          rw [h1] at hc
          exact ⟨l, by simp, hv, hc⟩
        · rename_i b _
          have := costLoop_spec (elim := elim) (v := v) h (p := c) (n := if b then n else n + 1)
          rw [e] at this
          obtain ⟨m, h1, h2⟩ := this
          exact ⟨m, by simp [h1], h2⟩
    · rename_i m e
      split at e
      · rename_i hv
        have := costLoop_spec (elim := elim) (v := v) h (p := c) (n := n)
        rw [e] at this
        rw [List.filter_cons_of_neg (by simp [hv])]
        exact this
      · rename_i hv
        have hc := costLit_spec (l := l) h
        split at e
        · cases e
        · rename_i b hb
          rw [hb] at hc
          have := costLoop_spec (elim := elim) (v := v) h (p := c) (n := if b then n else n + 1)
          rw [e] at this
          simp only [] at this
          cases b with
          | true =>
            rw [List.filter_cons_of_neg (by simp only [] at hc; simp [hc])]
            simpa using this
          | false =>
            have h3 : ((l :: c).filter fun l => decide (l.var ≠ v ∧ l ∉ q)).length ≤ (c.filter fun l => decide (l.var ≠ v ∧ l ∉ q)).length + 1 := by
              rw [List.filter_cons]; split <;> simp
            simp only [Bool.false_eq_true, if_false] at this
            omega

/-- The cost is at least the length of the resolvent. -/
theorem mergeCost_ge {elim : Nat → Bool} {v : Nat} {p q : Cls} (h : ∀ m ∈ q, elim m.var = false) (hp : ⟨v, true⟩ ∈ p) (hq : ⟨v, false⟩ ∈ q) {c : Cls}
    (hnd : (c.map Lit.var).Nodup) (hc : ∀ l, l ∈ c ↔ (l ∈ p ∨ l ∈ q) ∧ l.var ≠ v) : c.length ≤ mergeCost elim v p q := by
  have hs := costLoop_spec (v := v) h (p := p) (n := 0)
  unfold mergeCost
  split
  · rename_i e
    rw [e] at hs
    obtain ⟨l, h1, h2, h3⟩ := hs
    have a1 : l ∈ c := (hc l).2 ⟨.inl h1, h2⟩
    have a2 : l.neg ∈ c := (hc l.neg).2 ⟨.inr h3, by rwa [Lit.neg_var]⟩
    exact absurd (List.inj_on_of_nodup_map hnd a1 a2 (Lit.neg_var l).symm) (by cases l; simp [Lit.neg])
  · rename_i n e
    rw [e] at hs
    rw [if_pos]
    · have hsub : c ⊆ (p.filter fun l => decide (l.var ≠ v ∧ l ∉ q)) ++ (q.filter fun l => decide (l.var ≠ v)) := by
        intro l hl
        obtain ⟨h1, h2⟩ := (hc l).1 hl
        rw [List.mem_append, List.mem_filter, List.mem_filter]
        by_cases hm : l ∈ q
        · exact .inr ⟨hm, by simpa using h2⟩
        · exact .inl ⟨h1.resolve_right hm, by simpa using ⟨h2, hm⟩⟩
      have := ((Cdb.nodup_of_map_var hnd).subperm hsub).length_le
      rw [List.length_append] at this
      simp only [] at hs
      omega
    · simp only [Bool.and_eq_true, List.any_eq_true, decide_eq_true_eq]
      exact ⟨⟨_, hp, rfl⟩, ⟨_, hq, rfl⟩⟩

theorem skipLoop_le {bound : Nat} : ∀ {ns : List Nat} {k a : Nat}, skipLoop bound ns k a = false → ∀ n ∈ ns, n ≤ 64
  | [], _, _, _, n, hn => by simp at hn
  | m :: ns, k, a, e, n, hn => by
    unfold skipLoop at e
    split at e
    · rename_i h0
      rcases List.mem_cons.1 hn with rfl | hn
      · omega
      · exact skipLoop_le e n hn
    split at e
    · cases e
    · rename_i hc
      rcases List.mem_cons.1 hn with rfl | hn
      · rw [not_or, not_lt, not_lt] at hc
        have h1 : n * 2 ^ k ≤ 64 * 2 ^ k := by
          have := hc.2
          rw [Nat.pow_succ] at this
          omega
        exact Nat.le_of_mul_le_mul_right h1 (Nat.two_pow_pos k)
      · exact skipLoop_le e n hn

/-- The parameters are those of the code: long clauses are ignored from 65 literals on, or later (src/config.rs:123), and no variable is eliminated
that `skip_var_elimination` rejects for every limit of growth. -/
structure Ctl.Real (c : Ctl) : Prop where
  sub : 64 ≤ c.sub
  skip : ∀ v y, c.skip v y = false → ∃ limit, skipVar limit v y = false

theorem Ctl.Real.careful {c : Ctl} (h : c.Real) (evo cnf : Nat) : Careful (c.lims evo cnf) c.skip := by
  intro v y hi hd hs i hi' j hj' h1 h2 r hnd hr
  obtain ⟨limit, hl⟩ := h.skip v y hs
  refine Nat.le_trans (mergeCost_ge (elim := y.1.2.elim) (fun m hm => (hd.cl j m hm).2.2) h1 h2 hnd hr) (Nat.le_trans ?_ h.sub)
  refine skipLoop_le hl _ ?_
  rw [List.mem_flatMap]
  exact ⟨i, hi', List.mem_map.2 ⟨j, hj', rfl⟩⟩

end Splr
