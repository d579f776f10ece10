import Verif.Model.VivTargets
import Verif.Spec.Vivify
import Verif.Lemmas.CdbWF
import Mathlib.Data.List.Sort
import Mathlib.Data.List.Nodup
import Mathlib.Tactic.FieldSimp
import Mathlib.Tactic.Linarith
/-! The targets of vivification. -/
namespace Splr

/-! ## the limit -/

theorem vivTry_one (x : DS) (cid : Nat) : vivOne x cid = (vivTry x cid).bind fun y => .ok y.1 := by
  unfold vivOne vivTry
  cases propRemains (x.1, x.2.backtrackSandbox) with
  | ok y =>
    simp only [Res.bind]
    split
    · rfl
    · cases vivDecide (y.1.clause cid).lits [] y.1 y.2 with
      | conflict db s decisions l r =>
        cases h2 : vivConflicting db cid (y.1.clause cid).lits decisions l r with
        | none => simp only [h2]
        | some o =>
          cases o with
          | none => simp only [h2]
          | some conf =>
            cases h3 : analyzeSandbox db s decisions conf with
            | none => simp only [h2, h3]
            | some vec =>
              simp only [h2, h3]
              cases vivApply (db, s.backtrackSandbox) cid (y.1.clause cid).learnt vec <;> rfl
      | _ => rfl
  | _ => rfl

theorem vivLoopLim_prefix (limit : Nat) : ∀ (ts : List Nat) (n : Nat) (x : DS), ∃ pre post, ts = pre ++ post ∧ (ts ≠ [] → pre ≠ []) ∧
    vivLoopLim limit ts n x = vivLoop pre x
  | [], n, x => ⟨[], [], rfl, by simp, rfl⟩
  | cid :: cids, n, x => by
    rw [vivLoopLim]
    have h1 := vivTry_one x cid
    cases hy : vivTry x cid with
    | ok y =>
      rw [hy] at h1
      simp only [Res.bind] at h1
      simp only [Res.bind]
      have key : ∀ m, ∃ pre post, cid :: cids = pre ++ post ∧ (cid :: cids ≠ [] → pre ≠ []) ∧ vivLoopLim limit cids m y.1 = vivLoop pre x := by
        intro m
        obtain ⟨pre, post, e, -, h⟩ := vivLoopLim_prefix limit cids m y.1
        refine ⟨cid :: pre, post, by rw [e]; rfl, by simp, ?_⟩
        rw [h, vivLoop, h1]; rfl
      split
      · exact key _
      · exact key _
      · split
        · exact ⟨[cid], cids, rfl, by simp, by rw [vivLoop, h1]; rfl⟩
        · exact key _
    | _ => rw [hy] at h1; exact ⟨[cid], cids, rfl, by simp, by rw [vivLoop, h1]; rfl⟩

/-! ## truncation -/

/-- Sort and truncate. -/
theorem topK {κ : Type} [LinearOrder κ] (cs : List (κ × Nat)) (m : Nat) :
    ∃ dropped, ((cs.mergeSort fun a b => decide (a.1 ≤ b.1)).take m ++ dropped).Perm cs ∧
      ∀ a ∈ (cs.mergeSort fun a b => decide (a.1 ≤ b.1)).take m, ∀ b ∈ dropped, a.1 ≤ b.1 := by
  refine ⟨(cs.mergeSort fun a b => decide (a.1 ≤ b.1)).drop m, ?_, ?_⟩
  · rw [List.take_append_drop]
    exact List.mergeSort_perm _ _
  · have hs : (cs.mergeSort fun a b => decide (a.1 ≤ b.1)).Pairwise fun a b => decide (a.1 ≤ b.1) = true :=
      List.pairwise_mergeSort (fun a b c h1 h2 => by simp at *; exact h1.trans h2) (fun a b => by simp; exact le_total _ _) cs
    rw [← List.take_append_drop m (cs.mergeSort _), List.pairwise_append] at hs
    intro a ha b hb
    simpa using hs.2.2 a ha b hb

/-! ## later targets -/

theorem laterKey_spec {n : Nat} {c : Cl} {used : Nat} : (∃ k, laterKey n c used = some k ∧ k ≠ 0) ↔ Probed n c used := by
  have hdead : c.dead = false ↔ c.lits ≠ [] := by simp [Cl.dead]
  unfold laterKey Probed
  by_cases hn : n = 0
  · rw [if_pos hn, if_pos hn]
    by_cases h : c.dead = false ∧ c.rank ≤ 4
    · rw [if_pos h]
      obtain ⟨h1, h2⟩ := h
      have h1 := hdead.1 h1
      have hl : 0 < c.lits.length := List.length_pos_iff.2 h1
      simp only [Option.some.injEq, exists_eq_left']
      by_cases h0 : c.rank = 0
      · rw [if_pos h0]
        simp only [ne_eq, WithTop.top_ne_zero, not_false_iff, true_iff]
        exact ⟨h1, h2, by omega⟩
      · rw [if_neg h0]
        have h0' : (c.rank : ℚ) ≠ 0 := by exact_mod_cast h0
        rw [ne_eq, WithTop.coe_eq_zero, div_eq_zero_iff, sub_eq_zero]
        constructor
        · intro h; refine ⟨h1, h2, fun e => h (.inl (by rw [e]))⟩
        · rintro ⟨-, -, h⟩ (e | e)
          · exact h (by exact_mod_cast e.symm)
          · exact h0' e
    · rw [if_neg h]
      constructor
      · rintro ⟨k, e, -⟩; simp at e
      · rintro ⟨h1, h2, -⟩; exact absurd ⟨hdead.2 h1, h2⟩ h
  · rw [if_neg hn, if_neg hn]
    by_cases h : c.dead = false ∧ c.rank = n ∧ 4 ≤ used
    · rw [if_pos h]
      obtain ⟨h1, h2, h3⟩ := h
      simp only [Option.some.injEq, exists_eq_left']
      by_cases h0 : c.rank < c.lits.length
      · rw [if_pos h0]
        have hr : (c.rank : ℚ) ≠ 0 := by rw [h2]; exact_mod_cast hn
        have hl : (c.lits.length : ℚ) ≠ 0 := by exact_mod_cast (by omega : c.lits.length ≠ 0)
        rw [ne_eq, WithTop.coe_eq_zero, div_eq_zero_iff]
        refine ⟨fun _ => ⟨hdead.1 h1, h2, h3, h0⟩, fun _ => by rintro (e | e) <;> contradiction⟩
      · rw [if_neg h0]
        constructor
        · intro h; exact absurd rfl h
        · rintro ⟨-, -, -, h⟩; exact absurd h h0
    · rw [if_neg h]
      constructor
      · rintro ⟨k, e, -⟩; simp at e
      · rintro ⟨h1, h2, h3, -⟩; exact absurd ⟨hdead.2 h1, h2, h3⟩ h

theorem map_snd_filterMap {κ : Type} {f : Nat → Option (κ × Nat)} {p : Nat → Bool} (hf : ∀ i y, f i = some y → y.2 = i)
    (hp : ∀ i, (∃ y, f i = some y) ↔ p i = true) : ∀ l : List Nat, (l.filterMap f).map Prod.snd = l.filter p
  | [] => rfl
  | i :: l => by
    cases h : f i with
    | none =>
      have : p i = false := by
        rw [Bool.eq_false_iff]; intro h'
        obtain ⟨y, e⟩ := (hp i).2 h'
        rw [h] at e; simp at e
      rw [List.filterMap_cons_none h, List.filter_cons_of_neg (by simp [this]), map_snd_filterMap hf hp l]
    | some y =>
      have : p i = true := (hp i).1 ⟨y, h⟩
      rw [List.filterMap_cons_some h, List.filter_cons_of_pos this, List.map_cons, map_snd_filterMap hf hp l, hf i y h]

theorem laterAll_ids (db : Cdb) (used : Nat → Nat) (n : Nat) : (laterAll db used n).map Prod.snd =
    ((List.range (db.len - 1)).map (· + 1)).filter fun i => decide (Probed n (db.clause i) (used i)) := by
  refine map_snd_filterMap (fun i y h => ?_) (fun i => ?_) _
  · rw [Option.bind_eq_some_iff] at h
    obtain ⟨k, -, h⟩ := h
    split at h
    · simp at h
    · simp at h; rw [← h]
  · rw [decide_eq_true_eq, ← laterKey_spec]
    constructor
    · rintro ⟨y, h⟩
      rw [Option.bind_eq_some_iff] at h
      obtain ⟨k, e, h⟩ := h
      split at h
      · simp at h
      · exact ⟨k, e, ‹_›⟩
    · rintro ⟨k, e, h⟩
      exact ⟨(k, i), by rw [e]; simp [h]⟩

theorem laterAll_key {db : Cdb} {used : Nat → Nat} {n : Nat} {k : WithTop ℚ} {i : Nat} (h : (k, i) ∈ laterAll db used n) :
    laterKey n (db.clause i) (used i) = some k := by
  unfold laterAll at h
  obtain ⟨j, -, h⟩ := List.mem_filterMap.1 h
  rw [Option.bind_eq_some_iff] at h
  obtain ⟨k', e, h⟩ := h
  split at h
  · simp at h
  · simp at h
    obtain ⟨rfl, rfl⟩ := h
    exact e

/-- The order of the keys is that of the quotients of length and rank. -/
theorem laterKey_le {n : Nat} {c d : Cl} {u v : Nat} {k m : WithTop ℚ} (h1 : laterKey n c u = some k) (h2 : laterKey n d v = some m)
    (hc : Probed n c u) (hd : Probed n d v) (h : k ≤ m) : c.lits.length * d.rank ≤ d.lits.length * c.rank := by
  unfold laterKey at h1 h2
  have hdead : ∀ c : Cl, c.dead = false ↔ c.lits ≠ [] := by simp [Cl.dead]
  unfold Probed at hc hd
  by_cases hn : n = 0
  · rw [if_pos hn] at h1 h2 hc hd
    rw [if_pos ⟨(hdead c).2 hc.1, hc.2.1⟩] at h1
    rw [if_pos ⟨(hdead d).2 hd.1, hd.2.1⟩] at h2
    simp only [Option.some.injEq] at h1 h2
    by_cases hd0 : d.rank = 0
    · rw [hd0]; simp
    · rw [if_neg hd0] at h2
      by_cases hc0 : c.rank = 0
      · rw [if_pos hc0] at h1
        rw [← h1, ← h2] at h
        exact absurd h (by simp)
      · rw [if_neg hc0] at h1
        rw [← h1, ← h2, WithTop.coe_le_coe] at h
        have p1 : (0 : ℚ) < c.rank := by exact_mod_cast Nat.pos_of_ne_zero hc0
        have p2 : (0 : ℚ) < d.rank := by exact_mod_cast Nat.pos_of_ne_zero hd0
        rw [div_le_div_iff₀ p1 p2] at h
        have : (c.lits.length : ℚ) * d.rank ≤ d.lits.length * c.rank := by linarith
        exact_mod_cast this
  · rw [if_neg hn] at h1 h2 hc hd
    rw [if_pos ⟨(hdead c).2 hc.1, hc.2.1, hc.2.2.1⟩, if_pos hc.2.2.2] at h1
    rw [if_pos ⟨(hdead d).2 hd.1, hd.2.1, hd.2.2.1⟩, if_pos hd.2.2.2] at h2
    simp only [Option.some.injEq] at h1 h2
    rw [← h1, ← h2, WithTop.coe_le_coe] at h
    have p1 : (0 : ℚ) < c.rank := by rw [hc.2.1]; exact_mod_cast Nat.pos_of_ne_zero hn
    have p2 : (0 : ℚ) < d.rank := by rw [hd.2.1]; exact_mod_cast Nat.pos_of_ne_zero hn
    rw [div_le_div_iff₀ p1 p2] at h
    exact_mod_cast h

/-! ## the first targets -/

/-- The value of an entry of the table. -/
def tval (o : Option (Nat × Nat)) : Nat := (o.map Prod.fst).getD 0

theorem firstTable_spec (db : Cdb) : ∀ (is : List Nat) (t : Lit → Option (Nat × Nat)) (l : Lit),
    tval (t l) ≤ tval (firstTable db is t l) ∧
    (∀ n i, firstTable db is t l = some (n, i) → t l = some (n, i) ∨ i ∈ is ∧ (db.clause i).lits.head? = some l ∧ n = (db.clause i).lits.length) ∧
    ∀ i ∈ is, (db.clause i).lits.head? = some l → (db.clause i).lits.length ≤ tval (firstTable db is t l)
  | [], t, l => ⟨le_refl _, fun n i h => .inl h, by simp⟩
  | i :: is, t, l => by
    cases h0 : (db.clause i).lits with
    | nil =>
      rw [show firstTable db (i :: is) t = firstTable db is t by rw [firstTable, h0]]
      obtain ⟨a1, a2, a3⟩ := firstTable_spec db is t l
      refine ⟨a1, fun n j h => (a2 n j h).imp id fun h => ⟨List.mem_cons_of_mem _ h.1, h.2⟩, fun j hj hl => ?_⟩
      rcases List.mem_cons.1 hj with rfl | hj
      · rw [h0] at hl; simp at hl
      · exact a3 j hj hl
    | cons l0 tl =>
      by_cases hlt : ((t l0).map Prod.fst).getD 0 < (l0 :: tl).length
      · rw [show firstTable db (i :: is) t = firstTable db is (upd t l0 (some ((l0 :: tl).length, i))) by rw [firstTable, h0]; exact if_pos hlt]
        obtain ⟨a1, a2, a3⟩ := firstTable_spec db is (upd t l0 (some ((l0 :: tl).length, i))) l
        by_cases hl : l = l0
        · subst hl
          have hv : tval (upd t l (some ((l :: tl).length, i)) l) = (l :: tl).length := by simp [upd, tval]
          rw [hv] at a1
          refine ⟨le_trans (le_of_lt hlt) a1, fun n j h => ?_, fun j hj hh => ?_⟩
          · rcases a2 n j h with h | h
            · simp only [upd, if_true, Option.some.injEq, Prod.mk.injEq] at h
              obtain ⟨rfl, rfl⟩ := h
              exact .inr ⟨by simp, by rw [h0]; rfl, by rw [h0]⟩
            · exact .inr ⟨List.mem_cons_of_mem _ h.1, h.2⟩
          · rcases List.mem_cons.1 hj with rfl | hj
            · rw [h0]; exact a1
            · exact a3 j hj hh
        · have hv : upd t l0 (some ((l0 :: tl).length, i)) l = t l := by simp [upd, hl]
          rw [hv] at a1 a2
          refine ⟨a1, fun n j h => (a2 n j h).imp id fun h => ⟨List.mem_cons_of_mem _ h.1, h.2⟩, fun j hj hh => ?_⟩
          rcases List.mem_cons.1 hj with rfl | hj
          · rw [h0] at hh; simp at hh; exact absurd hh.symm hl
          · exact a3 j hj hh
      · rw [show firstTable db (i :: is) t = firstTable db is t by rw [firstTable, h0]; exact if_neg hlt]
        obtain ⟨a1, a2, a3⟩ := firstTable_spec db is t l
        refine ⟨a1, fun n j h => (a2 n j h).imp id fun h => ⟨List.mem_cons_of_mem _ h.1, h.2⟩, fun j hj hl => ?_⟩
        rcases List.mem_cons.1 hj with rfl | hj
        · rw [h0] at hl ⊢; simp at hl; subst hl
          exact le_trans (not_lt.1 hlt) a1
        · exact a3 j hj hl

/-- The literal with a code. -/
def litAt (k : Nat) : Lit := ⟨k / 2, k % 2 == 1⟩

theorem litAt_inj {k m : Nat} (h : litAt k = litAt m) : k = m := by
  unfold litAt at h
  injection h with h1 h2
  have : (k % 2 = 1) ↔ (m % 2 = 1) := by
    constructor <;> intro h <;> simp [h] at h2 <;> omega
  omega

theorem litAt_ord (l : Lit) : litAt l.ord = l := by
  unfold litAt Lit.ord
  rcases l with ⟨v, _ | _⟩
  · simp
  · simp; omega

theorem mem_firstAll {db : Cdb} {nv n i : Nat} (h : (n, i) ∈ firstAll db nv) :
    ∃ k, k < 2 * (nv + 1) ∧ 0 < i ∧ i < db.len ∧ (db.clause i).lits.head? = some (litAt k) ∧ n = (db.clause i).lits.length ∧
      ∀ j, 0 < j → j < db.len → (db.clause j).lits.head? = some (litAt k) → (db.clause j).lits.length ≤ n := by
  unfold firstAll at h
  obtain ⟨k, hk, e⟩ := List.mem_filterMap.1 h
  obtain ⟨-, a2, a3⟩ := firstTable_spec db ((List.range (db.len - 1)).map (· + 1)) (fun _ => none) (litAt k)
  change firstTable db _ _ (litAt k) = some (n, i) at e
  rcases a2 n i e with h | ⟨h1, h2, h3⟩
  · simp at h
  · simp only [List.mem_map, List.mem_range] at h1
    obtain ⟨m, hm, rfl⟩ := h1
    refine ⟨k, by simpa using hk, by omega, by omega, h2, h3, fun j h0 hl hh => ?_⟩
    have := a3 j (by simp only [List.mem_map, List.mem_range]; exact ⟨j - 1, by omega, by omega⟩) hh
    rw [e] at this
    simpa [tval] using this

theorem firstAll_ids (db : Cdb) (nv : Nat) : ((firstAll db nv).map Prod.snd).Nodup := by
  unfold firstAll
  rw [List.map_filterMap]
  refine List.Nodup.filterMap ?_ List.nodup_range
  intro k m i hk hm
  simp only [Option.mem_def, Option.map_eq_some_iff] at hk hm
  obtain ⟨⟨a, i1⟩, hk, rfl⟩ := hk
  obtain ⟨⟨b, i2⟩, hm, e⟩ := hm
  simp only at e
  subst e
  obtain ⟨-, a2, -⟩ := firstTable_spec db ((List.range (db.len - 1)).map (· + 1)) (fun _ => none) (litAt k)
  obtain ⟨-, b2, -⟩ := firstTable_spec db ((List.range (db.len - 1)).map (· + 1)) (fun _ => none) (litAt m)
  rcases a2 _ _ hk with h | h1
  · simp at h
  rcases b2 _ _ hm with h | h2
  · simp at h
  exact litAt_inj (Option.some.inj (h1.2.1.symm.trans h2.2.1))

theorem firstAll_inj {db : Cdb} {nv a b i j : Nat} {l : Lit} (hi : (a, i) ∈ firstAll db nv) (hj : (b, j) ∈ firstAll db nv)
    (h1 : (db.clause i).lits.head? = some l) (h2 : (db.clause j).lits.head? = some l) : i = j := by
  unfold firstAll at hi hj
  obtain ⟨k, -, ek⟩ := List.mem_filterMap.1 hi
  obtain ⟨m, -, em⟩ := List.mem_filterMap.1 hj
  change firstTable db _ _ (litAt k) = some (a, i) at ek
  change firstTable db _ _ (litAt m) = some (b, j) at em
  obtain ⟨-, a2, -⟩ := firstTable_spec db ((List.range (db.len - 1)).map (· + 1)) (fun _ => none) (litAt k)
  obtain ⟨-, b2, -⟩ := firstTable_spec db ((List.range (db.len - 1)).map (· + 1)) (fun _ => none) (litAt m)
  rcases a2 _ _ ek with h | h3
  · simp at h
  rcases b2 _ _ em with h | h4
  · simp at h
  have : litAt k = litAt m := by
    rw [← Option.some.inj (h1.symm.trans h3.2.1), ← Option.some.inj (h2.symm.trans h4.2.1)]
  rw [this, em] at ek
  injection ek with ek
  exact (Prod.mk.inj ek).2.symm

theorem firstAll_covers {db : Cdb} {nv i : Nat} {l : Lit} (hi : 0 < i) (hl : i < db.len) (hh : (db.clause i).lits.head? = some l) (hv : l.var ≤ nv) :
    ∃ n j, (n, j) ∈ firstAll db nv ∧ (db.clause j).lits.head? = some l := by
  obtain ⟨-, a2, a3⟩ := firstTable_spec db ((List.range (db.len - 1)).map (· + 1)) (fun _ => none) l
  have := a3 i (by simp only [List.mem_map, List.mem_range]; exact ⟨i - 1, by omega, by omega⟩) hh
  have hne : (db.clause i).lits ≠ [] := by intro e; rw [e] at hh; simp at hh
  have hp := List.length_pos_iff.2 hne
  cases e : firstTable db ((List.range (db.len - 1)).map (· + 1)) (fun _ => none) l with
  | none => rw [e] at this; simp [tval] at this; exact absurd this hne
  | some y =>
    obtain ⟨n, j⟩ := y
    rcases a2 n j e with h | h
    · simp at h
    · refine ⟨n, j, ?_, h.2.1⟩
      unfold firstAll
      refine List.mem_filterMap.2 ⟨l.ord, ?_, ?_⟩
      · rw [List.mem_range]; unfold Lit.ord; split <;> omega
      · have := litAt_ord l
        unfold litAt at this
        rw [this]; exact e

end Splr
