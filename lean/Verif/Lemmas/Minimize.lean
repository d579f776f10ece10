import Verif.Lemmas.Analyze
/-! Minimisation of learnt clauses. -/
namespace Splr
open Stk

/-- The variable is implied by variables of the root level and by marked variables. -/
def Closed (db : Cdb) (s : Stk) (seen : Nat → Bool) (v : Nat) : Prop :=
  (s.reason v).implied = true ∧ ∀ q ∈ antecedents db (s.reason v), s.level q.var = 0 ∨ seen q.var = true

theorem Closed.mono {db : Cdb} {s : Stk} {f g : Nat → Bool} {v : Nat} (h : Closed db s f v) (hm : ∀ x, f x = true → g x = true) :
    Closed db s g v := ⟨h.1, fun q hq => (h.2 q hq).imp id (hm _)⟩

theorem Inv.reason_of_assigned {db : Cdb} {s : Stk} (h : Inv db s) {v : Nat} (ha : s.assign v ≠ none) :
    (∃ pre t post, s.trail = pre ++ t :: post ∧ t.var = v ∧ s.tr t ∧ ReasonOK db s pre t) ∨ (v ∉ s.trail.map Lit.var ∧ s.level v = 0) := by
  by_cases hv : v ∈ s.trail.map Lit.var
  · obtain ⟨t, ht, rfl⟩ := List.mem_map.1 hv
    obtain ⟨pre, post, e⟩ := List.append_of_mem ht
    exact .inl ⟨pre, t, post, e, rfl, h.tv t ht, h.rs _ _ _ e⟩
  · exact .inr ⟨hv, h.arch v ha hv⟩

/-- If every marked variable is kept or closed, then agreeing on the kept ones means agreeing on all. -/
theorem agree_all {db : Cdb} {s : Stk} (hi : Inv db s) {seen : Nat → Bool} {kept : List Nat}
    (hc : ∀ v, seen v = true → v ∈ kept ∨ Closed db s seen v) {D : Lit → Prop} (hb : Mod db s D) (hk : ∀ v ∈ kept, Agree s D v) :
    ∀ v, s.assign v ≠ none → seen v = true → Agree s D v := by
  have main : ∀ n pre t post, pre.length = n → s.trail = pre ++ t :: post → seen t.var = true → Agree s D t.var := by
    intro n
    induction n using Nat.strongRecOn with
    | ind n ih =>
      intro pre t post hn e hst
      rcases hc _ hst with h1 | h1
      · exact hk _ h1
      · have hr := hi.rs _ _ _ e
        refine reason_forces hb hr (hi.tv t (by rw [e]; simp)) h1.1 fun q hq => ?_
        obtain ⟨m, em, hm⟩ := antecedent_before hr hq
        rw [← em]
        rcases h1.2 q hq with h0 | h0
        · exact hb.agree_root (tr_assigned hm.1) (by rw [em]; exact h0)
        · rcases hm.2 with hmem | hmem
          · obtain ⟨p1, p2, e2⟩ := List.append_of_mem hmem
            refine ih p1.length ?_ p1 m (p2 ++ t :: post) rfl (by rw [e, e2]; simp) (by rw [em]; exact h0)
            have := congrArg List.length e2; simp at this; omega
          · exact hb.agree_root (tr_assigned hm.1) (hi.arch _ (tr_assigned hm.1) hmem)
  intro v ha hs
  rcases Inv.reason_of_assigned hi ha with ⟨pre, t, post, e, rfl, -, -⟩ | ⟨-, h0⟩
  · exact main _ pre t post rfl e hs
  · exact hb.agree_root ha h0

/-! ## `is_redundant` -/

theorem redLits_spec {db : Cdb} {s : Stk} {levels : Nat → Bool} : ∀ {qs : Cls} {a a' : Red}, redLits s levels qs a = some a' →
    (∀ v, a.seen v = true → a'.seen v = true) ∧ (∀ q ∈ qs, s.level q.var = 0 ∨ a'.seen q.var = true) ∧
    (∀ v, a'.seen v = true → a.seen v = true ∨ v ∈ qs.map Lit.var ∧ v ∈ a'.stack.map Lit.var ∧ v ∈ a'.clear.map Lit.var) ∧
    (∀ l ∈ a.stack, l ∈ a'.stack) ∧ (∀ l ∈ a.clear, l ∈ a'.clear) ∧
    (∀ l ∈ a'.stack, l ∈ a.stack ∨ (s.reason l.var).implied = true)
  | [], a, a', h => by
    simp only [redLits, Option.some.injEq] at h; subst h
    exact ⟨fun _ h => h, by simp, fun _ h => .inl h, fun _ h => h, fun _ h => h, fun _ h => .inl h⟩
  | q :: qs, a, a', h => by
    unfold redLits at h
    split at h
    · rename_i hc
      split at h
      · rename_i hc2
        obtain ⟨i1, i2, i3, i4, i5, i6⟩ := redLits_spec (db := db) h
        have hq : a'.seen q.var = true := i1 _ (by simp [upd])
        refine ⟨fun v hv => i1 v (by simp only [upd_apply]; split <;> simp [hv]), ?_, ?_, fun l hl => i4 l (by simp [hl]),
          fun l hl => i5 l (by simp [hl]), ?_⟩
        · intro x hx
          rcases List.mem_cons.1 hx with rfl | hx
          · exact .inr hq
          · exact i2 x hx
        · intro v hv
          rcases i3 v hv with h1 | h1
          · simp only [upd_apply] at h1
            split at h1
            · rename_i e; subst e
              exact .inr ⟨by simp, List.mem_map_of_mem (i4 q (by simp)), List.mem_map_of_mem (i5 q (by simp))⟩
            · exact .inl h1
          · exact .inr ⟨by simp only [List.map_cons, List.mem_cons]; exact .inr h1.1, h1.2⟩
        · intro l hl
          rcases i6 l hl with h1 | h1
          · rcases List.mem_cons.1 h1 with rfl | h1
            · simp at hc2; exact .inr hc2.1
            · exact .inl h1
          · exact .inr h1
      · simp at h
    · rename_i hc
      obtain ⟨i1, i2, i3, i4, i5, i6⟩ := redLits_spec (db := db) h
      refine ⟨i1, ?_, ?_, i4, i5, i6⟩
      · intro x hx
        rcases List.mem_cons.1 hx with rfl | hx
        · by_cases h0 : s.level x.var = 0
          · exact .inl h0
          · right; apply i1
            by_contra hns
            exact hc ⟨by omega, by simpa using hns⟩
        · exact i2 x hx
      · intro v hv
        rcases i3 v hv with h1 | h1
        · exact .inl h1
        · exact .inr ⟨by simp only [List.map_cons, List.mem_cons]; exact .inr h1.1, h1.2⟩

/-- The invariant of the search of `is_redundant`: a marked variable was marked from the start (`seen0`), or is on the stack, or
is closed. -/
theorem redLoop_spec {db : Cdb} {s : Stk} {levels : Nat → Bool} {P : Nat → Prop} : ∀ {n : Nat} {a a' : Red},
    (∀ v, a.seen v = true → P v ∨ v ∈ a.stack.map Lit.var ∨ Closed db s a.seen v) →
    (∀ l ∈ a.stack, (s.reason l.var).implied = true) →
    redLoop db s levels n a = .yes a' →
    (∀ v, a.seen v = true → a'.seen v = true) ∧ (∀ v, a'.seen v = true → P v ∨ Closed db s a'.seen v) ∧
    (∀ l ∈ a.stack, Closed db s a'.seen l.var) ∧ (∀ l ∈ a.clear, l ∈ a'.clear) ∧
    (∀ v, a'.seen v = true → a.seen v = true ∨ v ∈ a'.clear.map Lit.var) := by
  intro n
  induction n with
  | zero =>
    intro a a' h1 h2 h
    unfold redLoop at h
    split at h
    · rename_i e; simp only [RedRes.yes.injEq] at h; subst h
      refine ⟨fun _ h => h, fun v hv => ?_, by rw [e]; simp, fun _ h => h, fun _ h => .inl h⟩
      rcases h1 v hv with h | h | h
      · exact .inl h
      · rw [e] at h; simp at h
      · exact .inr h
    · simp at h
  | succ n ih =>
    intro a a' h1 h2 h
    unfold redLoop at h
    split at h
    · rename_i e; simp only [RedRes.yes.injEq] at h; subst h
      refine ⟨fun _ h => h, fun v hv => ?_, by rw [e]; simp, fun _ h => h, fun _ h => .inl h⟩
      rcases h1 v hv with h | h | h
      · exact .inl h
      · rw [e] at h; simp at h
      · exact .inr h
    · rename_i sl st e
      split at h
      · simp at h
      · rename_i a1 e1
        obtain ⟨i1, i2, i3, i4, i5, i6⟩ := redLits_spec (db := db) e1
        simp only [] at i1 i2 i3 i4 i5 i6
        have hcl : Closed db s a1.seen sl.var := ⟨h2 sl (by rw [e]; simp), i2⟩
        obtain ⟨j1, j2, j3, j4, j5⟩ := ih (a := a1) (a' := a') (by
          intro v hv
          rcases i3 v hv with h3 | h3
          · rcases h1 v h3 with h4 | h4 | h4
            · exact .inl h4
            · rw [e] at h4
              simp only [List.map_cons, List.mem_cons] at h4
              rcases h4 with h4 | h4
              · subst h4; exact .inr (.inr hcl)
              · obtain ⟨x, hx, rfl⟩ := List.mem_map.1 h4
                exact .inr (.inl (List.mem_map_of_mem (i4 x hx)))
            · exact .inr (.inr (h4.mono i1))
          · exact .inr (.inl h3.2.1)) (by
          intro l hl
          rcases i6 l hl with h3 | h3
          · exact h2 l (by rw [e]; simp [h3])
          · exact h3) h
        refine ⟨fun v hv => j1 v (i1 v hv), j2, ?_, fun l hl => j4 l (i5 l hl), ?_⟩
        · intro l hl
          rw [e] at hl
          rcases List.mem_cons.1 hl with rfl | hl
          · exact hcl.mono j1
          · exact j3 l (i4 l hl)
        · intro v hv
          rcases j5 v hv with h3 | h3
          · rcases i3 v h3 with h4 | h4
            · exact .inl h4
            · obtain ⟨x, hx, rfl⟩ := List.mem_map.1 h4.2.2
              exact .inr (List.mem_map_of_mem (j4 x hx))
          · exact .inr h3

theorem isRedundant_spec {db : Cdb} {s : Stk} {levels seen : Nat → Bool} {clear : Cls} {l : Lit} {r : Bool} {seen' : Nat → Bool} {clear' : Cls}
    {P : Nat → Prop} (h1 : ∀ v, seen v = true → P v ∨ v = l.var ∨ Closed db s seen v)
    (h : isRedundant db s levels seen clear l = some (r, seen', clear')) :
    (∀ v, seen v = true → seen' v = true) ∧ (∀ l ∈ clear, l ∈ clear') ∧ (∀ v, seen' v = true → seen v = true ∨ v ∈ clear'.map Lit.var) ∧
    (if r then Closed db s seen' l.var ∧ ∀ v, seen' v = true → P v ∨ Closed db s seen' v else seen' = seen) := by
  unfold isRedundant at h
  have key : ∀ (_ : (s.reason l.var).implied = true), (match redLoop db s levels (s.trail.length + 1) { stack := [l], seen := seen, clear := clear } with
    | .yes a => some (true, a.seen, a.clear)
    | .no => some (false, seen, clear)
    | .fuel => none) = some (r, seen', clear') → (∀ v, seen v = true → seen' v = true) ∧ (∀ l ∈ clear, l ∈ clear') ∧
    (∀ v, seen' v = true → seen v = true ∨ v ∈ clear'.map Lit.var) ∧
    (if r then Closed db s seen' l.var ∧ ∀ v, seen' v = true → P v ∨ Closed db s seen' v else seen' = seen) := by
    intro himp h
    split at h
    · rename_i a e
      simp only [Option.some.injEq, Prod.mk.injEq] at h
      obtain ⟨rfl, rfl, rfl⟩ := h
      obtain ⟨j1, j2, j3, j4, j5⟩ := redLoop_spec (P := P) (by
        intro v hv; rcases h1 v hv with h | h | h
        · exact .inl h
        · exact .inr (.inl (by simp [h]))
        · exact .inr (.inr h)) (by simpa using himp) e
      refine ⟨j1, j4, j5, ?_⟩
      rw [if_pos rfl]
      exact ⟨j3 l (by simp), j2⟩
    · simp only [Option.some.injEq, Prod.mk.injEq] at h
      obtain ⟨rfl, rfl, rfl⟩ := h
      exact ⟨fun _ h => h, fun _ h => h, fun _ h => .inl h, by simp⟩
    · simp at h
  cases hr : s.reason l.var with
  | decision k =>
    rw [hr] at h
    simp only [Option.some.injEq, Prod.mk.injEq] at h
    obtain ⟨rfl, rfl, rfl⟩ := h
    exact ⟨fun _ h => h, fun _ h => h, fun _ h => .inl h, by simp⟩
  | none => rw [hr] at h; simp at h
  | binary m => rw [hr] at h; exact key (by rw [hr]; rfl) h
  | impl c => rw [hr] at h; exact key (by rw [hr]; rfl) h

theorem retainLoop_spec {db : Cdb} {s : Stk} {levels : Nat → Bool} : ∀ {ls : Cls} {seen : Nat → Bool} {clear : Cls} {kept : Cls}
    {seen' : Nat → Bool} {clear' : Cls} {P : Nat → Prop},
    (∀ v, seen v = true → P v ∨ v ∈ ls.map Lit.var ∨ Closed db s seen v) →
    retainLoop db s levels ls seen clear = some (kept, seen', clear') →
    (∀ v, seen v = true → seen' v = true) ∧ (∀ l ∈ clear, l ∈ clear') ∧ (∀ v, seen' v = true → seen v = true ∨ v ∈ clear'.map Lit.var) ∧
    (∀ v, seen' v = true → P v ∨ v ∈ kept.map Lit.var ∨ Closed db s seen' v) ∧ kept.Sublist ls
  | [], seen, clear, kept, seen', clear', P, h1, h => by
    simp only [retainLoop, Option.some.injEq, Prod.mk.injEq] at h
    obtain ⟨rfl, rfl, rfl⟩ := h
    exact ⟨fun _ h => h, fun _ h => h, fun _ h => .inl h, h1, .refl _⟩
  | l :: ls, seen, clear, kept, seen', clear', P, h1, h => by
    unfold retainLoop at h
    split at h
    · simp at h
    rename_i r seen1 clear1 e1
    split at h
    · simp at h
    rename_i kept1 seen2 clear2 e2
    simp only [Option.some.injEq, Prod.mk.injEq] at h
    obtain ⟨rfl, rfl, rfl⟩ := h
    obtain ⟨i1, i2, i3, i4⟩ := isRedundant_spec (P := fun v => P v ∨ v ∈ ls.map Lit.var) (by
      intro v hv
      rcases h1 v hv with h | h | h
      · exact .inl (.inl h)
      · simp only [List.map_cons, List.mem_cons] at h
        rcases h with h | h
        · exact .inr (.inl h)
        · exact .inl (.inr h)
      · exact .inr (.inr h)) e1
    obtain ⟨j1, j2, j3, j4, j5⟩ := retainLoop_spec (P := fun v => P v ∨ (r = false ∧ v = l.var)) (by
      intro v hv
      cases r with
      | true =>
        simp only [if_true] at i4
        rcases i4.2 v hv with (h | h) | h
        · exact .inl (.inl h)
        · exact .inr (.inl h)
        · exact .inr (.inr h)
      | false =>
        simp only [Bool.false_eq_true, if_false] at i4
        rw [i4] at hv ⊢
        rcases h1 v hv with h | h | h
        · exact .inl (.inl h)
        · simp only [List.map_cons, List.mem_cons] at h
          rcases h with h | h
          · exact .inl (.inr ⟨rfl, h⟩)
          · exact .inr (.inl h)
        · exact .inr (.inr h)) e2
    refine ⟨fun v hv => j1 v (i1 v hv), fun x hx => j2 x (i2 x hx), ?_, ?_, ?_⟩
    · intro v hv
      rcases j3 v hv with h | h
      · rcases i3 v h with h | h
        · exact .inl h
        · obtain ⟨x, hx, rfl⟩ := List.mem_map.1 h
          exact .inr (List.mem_map_of_mem (j2 x hx))
      · exact .inr h
    · intro v hv
      rcases j4 v hv with (h | ⟨hr, h⟩) | h | h
      · exact .inl h
      · subst hr; subst h; right; left; simp
      · right; left; cases r <;> simp [h]
      · exact .inr (.inr h)
    · cases r <;> simp
      · exact j5
      · exact j5.cons _

/-! ## minimisation with binary clauses -/

theorem biMinimize_spec {db : Cdb} {s : Stk} (hw : db.WF) {l0 : Lit} {rest : Cls} (hnd : ((l0 :: rest).map Lit.var).Nodup)
    (hf : ∀ x ∈ rest, s.tr x.neg) :
    ∃ rest', biMinimize db s (l0 :: rest) = l0 :: rest' ∧ rest'.Sublist rest ∧
      ∀ D, Mod db s D → (∀ x ∈ l0 :: rest', D x.neg) → ∀ x ∈ rest, D x.neg := by
  simp only [List.map_cons, List.nodup_cons] at hnd
  unfold biMinimize
  simp only []
  split
  · exact ⟨rest, rfl, .refl _, fun b _ h x hx => h x (by simp [hx])⟩
  · rw [List.filter_cons_of_pos (by simp)]
    refine ⟨_, rfl, List.filter_sublist, ?_⟩
    intro D hb h x hx
    by_cases hg : x ∈ rest.filter (fun l => decide (l.var = l0.var) || decide (l.var ∉
        (List.map Lit.var ((List.filterMap (fun e => match (db.clause e.2).lits with
          | [a, b] => some (if a = l0 then b else a)
          | _ => none) (db.blist l0)).filter fun o => s.val o == some true)).filter fun v => decide (v ∈ rest.map Lit.var)))
    · exact h x (by rw [List.mem_cons]; exact .inr hg)
    · rw [List.mem_filter] at hg
      simp only [Bool.or_eq_true, decide_eq_true_eq] at hg
      have : x.var ∈ (List.map Lit.var ((List.filterMap (fun e => match (db.clause e.2).lits with
          | [a, b] => some (if a = l0 then b else a)
          | _ => none) (db.blist l0)).filter fun o => s.val o == some true)).filter fun v => decide (v ∈ rest.map Lit.var) := by
        by_contra hc; exact hg ⟨hx, .inr hc⟩
      obtain ⟨hm, -⟩ := List.mem_filter.1 this
      obtain ⟨o, ho, ev⟩ := List.mem_map.1 hm
      obtain ⟨ho1, ho2⟩ := List.mem_filter.1 ho
      obtain ⟨e, he, hlits⟩ := List.mem_filterMap.1 ho1
      have hot : s.tr o := by simpa [val_true] using ho2
      have hxo : x.neg = o := tr_var (hf x hx) hot ev.symm
      obtain ⟨e1, e2⟩ := e
      have hbl := (hw.bIff l0 e1 e2).1 he
      have hndc := hw.nd e2
      have hcl : ∀ y ∈ (db.clause e2).lits, y = l0 ∨ y = o := by
        intro y hy
        rcases hbl with hh | hh
        · rw [hh] at hlits hy; simp at hlits hy
          rcases hy with rfl | rfl
          · exact .inl rfl
          · exact .inr hlits
        · rw [hh] at hlits hy hndc
          simp only [] at hlits
          have : e1 ≠ l0 := by rintro rfl; simp at hndc
          simp [this] at hlits hy
          rcases hy with rfl | rfl
          · exact .inr hlits
          · exact .inl rfl
      rw [hxo]
      refine hb.cl e2 o ?_ fun y hy hne => ?_
      · rcases hbl with hh | hh
        · rw [hh] at hlits ⊢; simp at hlits; simp [hlits]
        · rw [hh] at hlits hndc ⊢
          have : e1 ≠ l0 := by rintro rfl; simp at hndc
          simp [this] at hlits; simp [hlits]
      · rcases hcl y hy with rfl | rfl
        · exact h y (by simp)
        · exact absurd rfl hne

/-! ## the second watched literal -/

theorem maxLevelAt_spec {s : Stk} : ∀ {ls : Cls} {i best lv : Nat} (pre : Cls), pre.length = i → 1 ≤ best → best < i →
    (∃ x, pre[best]? = some x ∧ s.level x.var = lv) → (∀ x ∈ pre.drop 1, s.level x.var ≤ lv) →
    1 ≤ (maxLevelAt s ls i best lv).1 ∧
    (∃ x, (pre ++ ls)[(maxLevelAt s ls i best lv).1]? = some x ∧ s.level x.var = (maxLevelAt s ls i best lv).2) ∧
    ∀ x ∈ (pre ++ ls).drop 1, s.level x.var ≤ (maxLevelAt s ls i best lv).2
  | [], i, best, lv, pre, hi, h1, hb, he, hm => by
    simp only [maxLevelAt, List.append_nil]; exact ⟨h1, he, hm⟩
  | l :: ls, i, best, lv, pre, hi, h1, hb, he, hm => by
    have happ : pre ++ l :: ls = (pre ++ [l]) ++ ls := by simp
    rw [happ]
    unfold maxLevelAt
    have hdrop : ∀ x ∈ (pre ++ [l]).drop 1, x ∈ pre.drop 1 ∨ x = l := by
      intro x hx
      rw [List.drop_append_of_le_length (by omega)] at hx
      simpa using hx
    split
    · rename_i hlt
      refine maxLevelAt_spec (pre ++ [l]) (by simp [hi]) (by omega) (by omega) ⟨l, ?_, rfl⟩ ?_
      · subst hi; simp
      · intro x hx
        rcases hdrop x hx with h | rfl
        · have := hm x h; omega
        · omega
    · rename_i hlt
      refine maxLevelAt_spec (pre ++ [l]) (by simp [hi]) h1 (by omega) ?_ ?_
      · obtain ⟨x, hx, e⟩ := he
        exact ⟨x, by rw [List.getElem?_append_left (by omega)]; exact hx, e⟩
      · intro x hx
        rcases hdrop x hx with h | rfl
        · exact hm x h
        · omega

theorem placeSecond_spec {s : Stk} {l0 : Lit} {rest : Cls} :
    ∃ rest', (placeSecond s (l0 :: rest)).1 = l0 :: rest' ∧ rest'.Perm rest ∧
      (∀ x ∈ rest, s.level x.var ≤ (placeSecond s (l0 :: rest)).2) ∧
      (∀ x xs, rest' = x :: xs → s.level x.var = (placeSecond s (l0 :: rest)).2) ∧
      (rest = [] → (placeSecond s (l0 :: rest)).2 = 0) := by
  cases rest with
  | nil => exact ⟨[], rfl, .refl _, by simp, by simp, fun _ => rfl⟩
  | cons l1 tl =>
    obtain ⟨h1, ⟨x, hx, e⟩, h3⟩ := maxLevelAt_spec (s := s) (ls := tl) (i := 2) (best := 1) (lv := s.level l1.var) [l0, l1] rfl
      (by omega) (by omega) ⟨l1, rfl, rfl⟩ (by simp)
    simp only [placeSecond]
    generalize hml : maxLevelAt s tl 2 1 (s.level l1.var) = ml at *
    obtain ⟨i, lv⟩ := ml
    simp only [List.cons_append, List.nil_append] at h1 hx h3 e ⊢
    have hp := Cdb.swapAt_perm (l0 :: l1 :: tl) 1 i
    obtain ⟨j, rfl⟩ : ∃ j, i = j + 1 := ⟨i - 1, by omega⟩
    simp only [swapAt, hx, List.getElem?_cons_succ, List.getElem?_cons_zero, List.set_cons_succ, List.set_cons_zero] at hp ⊢
    refine ⟨_, rfl, List.Perm.cons_inv hp, ?_, ?_, by simp⟩
    · simpa using h3
    · intro y ys hy
      cases j with
      | zero => simp at hy hx; rw [← hy.1]; rw [← e]; try rw [hx]
      | succ j => simp at hy; rw [← hy.1]; exact e

end Splr
