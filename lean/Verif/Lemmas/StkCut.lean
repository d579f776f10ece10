import Verif.Lemmas.StkOps
/-! Backtracking, root-level assignments, and the saved trail. -/
namespace Splr
namespace Stk

theorem take_split {α} {t : List α} {k : Nat} {pre : List α} {l : α} {post : List α} (h : t.take k = pre ++ l :: post) :
    t = pre ++ l :: (post ++ t.drop k) ∧ pre.length < k := by
  constructor
  · conv_lhs => rw [← List.take_append_drop k t, h]
    simp
  · have := congrArg List.length h
    simp at this; omega

theorem nodup_take_drop {t : List Lit} (h : (t.map Lit.var).Nodup) {k : Nat} {l m : Lit} (h1 : l ∈ t.take k) (h2 : m ∈ t.drop k) :
    l.var ≠ m.var := by
  rw [← List.take_append_drop k t, List.map_append, List.nodup_append] at h
  exact h.2.2 _ (List.mem_map_of_mem h1) _ (List.mem_map_of_mem h2)

/-- What backtracking does to the fields. -/
structure Cut (s s' : Stk) (lv k : Nat) : Prop where
  hk : s.lim[lv]? = some k
  as : s'.assign = fun v => if v ∈ (s.trail.drop k).map Lit.var then none else s.assign v
  re : s'.reason = fun v => if v ∈ (s.trail.drop k).map Lit.var then .none else s.reason v
  tr : s'.trail = s.trail.take k
  lm : s'.lim = s.lim.take lv
  le : s'.level = s.level

theorem Cut.keep {s s' : Stk} {lv k : Nat} (c : Cut s s' lv k) {v : Nat} (h : s'.assign v ≠ none) :
    v ∉ (s.trail.drop k).map Lit.var ∧ s'.assign v = s.assign v ∧ s'.reason v = s.reason v := by
  rw [c.as] at h
  by_cases e : v ∈ (s.trail.drop k).map Lit.var
  · simp only [] at h; rw [if_pos e] at h; exact absurd rfl h
  · exact ⟨e, by rw [c.as]; simp only []; rw [if_neg e], by rw [c.re]; simp only []; rw [if_neg e]⟩

theorem Cut.same {s s' : Stk} {lv k : Nat} (c : Cut s s' lv k) {v : Nat} (h : v ∉ (s.trail.drop k).map Lit.var) :
    s'.assign v = s.assign v ∧ s'.reason v = s.reason v := by
  rw [c.as, c.re]; simp only []; rw [if_neg h, if_neg h]; exact ⟨rfl, rfl⟩

theorem Cut.tr_of {s s' : Stk} {lv k : Nat} (c : Cut s s' lv k) {m : Lit} (h : s.tr m)
    (hv : m.var ∉ (s.trail.drop k).map Lit.var) : s'.tr m := by unfold Stk.tr; rw [(c.same hv).1]; exact h

theorem Cut.tr_old {s s' : Stk} {lv k : Nat} (c : Cut s s' lv k) {m : Lit} (h : s'.tr m) : s.tr m := by
  have := c.keep (tr_assigned h); unfold Stk.tr at *; rw [← this.2.1]; exact h

theorem Inv.not_dropped {db : Cdb} {s : Stk} (h : Inv db s) {k : Nat} {l : Lit} (hl : l ∈ s.trail.take k) :
    l.var ∉ (s.trail.drop k).map Lit.var := by
  intro hv; obtain ⟨m, hm, e⟩ := List.mem_map.1 hv
  exact nodup_take_drop h.nd hl hm e.symm

theorem Inv.before_cut {db : Cdb} {s s' : Stk} (h : Inv db s) {lv k : Nat} (c : Cut s s' lv k) {pre : List Lit} {m : Lit}
    (hp : ∀ x ∈ pre, x ∈ s.trail.take k) (hb : s.Before pre m) : s'.Before pre m := by
  rcases hb.2 with h1 | h1
  · exact ⟨c.tr_of hb.1 (h.not_dropped (hp m h1)), .inl h1⟩
  · have : m.var ∉ (s.trail.drop k).map Lit.var := fun hv => h1 (List.Sublist.subset (List.Sublist.map _ (List.drop_sublist k s.trail)) hv)
    refine ⟨c.tr_of hb.1 this, .inr ?_⟩
    rw [c.tr]; exact fun hv => h1 (List.Sublist.subset (List.Sublist.map _ (List.take_sublist k s.trail)) hv)

theorem pairwise_lt_index {l : List Nat} (h : l.Pairwise (· < ·)) {i j a b : Nat} (hi : l[i]? = some a) (hj : l[j]? = some b)
    (hab : a < b) : i < j := by
  by_contra hc
  obtain ⟨pi, rfl⟩ := List.getElem?_eq_some_iff.1 hi
  obtain ⟨pj, rfl⟩ := List.getElem?_eq_some_iff.1 hj
  rcases Nat.lt_or_ge j i with hlt | hge
  · have := List.pairwise_iff_getElem.1 h j i pj pi hlt; omega
  · have : i = j := by omega
    subst this; omega

theorem countP_take {l : List Nat} (h : l.Pairwise (· < ·)) {lv k n : Nat} (hk : l[lv]? = some k) (hn : n < k) :
    (l.take lv).countP (· ≤ n) = l.countP (· ≤ n) := by
  conv_rhs => rw [← List.take_append_drop lv l, List.countP_append]
  have : (l.drop lv).countP (· ≤ n) = 0 := by
    rw [List.countP_eq_zero]
    intro a ha
    obtain ⟨i, hi, e⟩ := List.mem_iff_getElem.1 ha
    rw [List.getElem_drop] at e
    obtain ⟨pk, ek⟩ := List.getElem?_eq_some_iff.1 hk
    simp at hi ⊢
    rcases Nat.eq_zero_or_pos i with rfl | hi0
    · simp at e; omega
    · have := List.pairwise_iff_getElem.1 h lv (lv + i) pk (by omega) (by omega); omega
  omega

theorem Inv.cut {db : Cdb} {s s' : Stk} (h : Inv db s) {lv k : Nat} (c : Cut s s' lv k) (hq : s'.qhead ≤ k) : Inv db s' := by
  have hmem : k ∈ s.lim := List.mem_of_getElem? c.hk
  have hklen := h.limLt k hmem
  refine ⟨?_, ?_, ?_, ?_, ?_, ?_, ?_, ?_, ?_, ?_, ?_⟩
  · rw [c.tr]; exact h.nd.sublist (List.Sublist.map _ (List.take_sublist _ _))
  · intro l hl; rw [c.tr] at hl
    exact c.tr_of (h.tv l (List.mem_of_mem_take hl)) (h.not_dropped hl)
  · intro v ha hv
    obtain ⟨k1, k2, -⟩ := c.keep ha
    rw [c.le]; refine h.arch v (by rw [← k2]; exact ha) ?_
    rw [← List.take_append_drop k s.trail, List.map_append, List.mem_append, not_or]
    rw [c.tr] at hv; exact ⟨hv, k1⟩
  · intro v ha hl
    obtain ⟨k1, k2, k3⟩ := c.keep ha
    rw [k3]; rw [c.le] at hl; exact h.root v (by rw [← k2]; exact ha) hl
  · intro v ha
    rw [c.re]; simp only []; split
    · rfl
    · rename_i e; rw [(c.same e).1] at ha; exact h.un v ha
  · intro i hi
    rw [c.lm] at hi; rw [c.tr, List.length_take]
    obtain ⟨j, hj, e⟩ := List.mem_iff_getElem.1 hi
    rw [List.getElem_take] at e
    simp at hj
    obtain ⟨pk, ek⟩ := List.getElem?_eq_some_iff.1 c.hk
    have := List.pairwise_iff_getElem.1 h.limInc j lv hj.2 pk hj.1
    omega
  · rw [c.lm]; exact h.limInc.sublist (List.take_sublist _ _)
  · rw [c.tr, List.length_take]; omega
  · intro pre l post e
    rw [c.tr] at e
    obtain ⟨e1, e2⟩ := take_split e
    rw [c.le, c.lm, countP_take h.limInc c.hk e2, h.lev _ _ _ e1]
  · intro pre l post e hm
    rw [c.tr] at e
    obtain ⟨e1, e2⟩ := take_split e
    have hl : l ∈ s.trail.take k := by rw [e]; simp
    rw [(c.same (h.not_dropped hl)).2, c.le]
    rw [c.lm] at hm
    exact h.dec _ _ _ e1 (List.mem_of_mem_take hm)
  · intro pre l post e
    rw [c.tr] at e
    obtain ⟨e1, e2⟩ := take_split e
    have hl : l ∈ s.trail.take k := by rw [e]; simp
    have hp : ∀ x ∈ pre, x ∈ s.trail.take k := fun x hx => by rw [e]; simp [hx]
    have hr := h.rs _ _ _ e1
    unfold ReasonOK at *
    rw [(c.same (h.not_dropped hl)).2]
    cases hrl : s.reason l.var <;> rw [hrl] at hr <;> simp only [] at hr ⊢
    · rw [c.le]; refine ⟨hr.1, fun hk => ?_⟩
      have := hr.2 hk
      have hlt := pairwise_lt_index h.limInc this c.hk e2
      rw [c.lm, List.getElem?_take_of_lt hlt]; exact this
    · exact ⟨hr.1, h.before_cut c hp hr.2⟩
    · obtain ⟨rest, r1, r2⟩ := hr
      exact ⟨rest, r1, fun x hx => h.before_cut c hp (r2 x hx)⟩

theorem getD_some {l : List Nat} {i : Nat} (h : i < l.length) : l[i]? = some (l.getD i 0) := by
  simp [List.getD_eq_getElem?_getD, List.getElem?_eq_getElem h]

theorem cancelUntil_cut {s : Stk} {low : Nat → Bool} {lv : Nat} (h : lv < s.dl) :
    Cut s (s.cancelUntil low lv) lv (s.lim.getD lv 0) ∧ (s.cancelUntil low lv).qhead = min (s.lim.getD lv 0) s.qhead := by
  obtain ⟨f1, f2, f3, f4, f5, f6, -⟩ := saveTrail_fields s low lv
  have : ¬ s.dl ≤ lv := by omega
  simp only [cancelUntil, this, if_false]
  refine ⟨⟨getD_some h, ?_, ?_, ?_, rfl, ?_⟩, trivial⟩
  · simp only [unassignFrom, f1, f4]
  · simp only [unassignFrom, f3, f4]
  · simp only [unassignFrom, f4]
  · simp only [unassignFrom, f2]

theorem cancelUntil_noop {s : Stk} {low : Nat → Bool} {lv : Nat} (h : s.dl ≤ lv) : s.cancelUntil low lv = s := by
  simp [cancelUntil, h]

theorem Inv.cancelUntil {db : Cdb} {s : Stk} (h : Inv db s) (low : Nat → Bool) (lv : Nat) : Inv db (s.cancelUntil low lv) := by
  by_cases hl : s.dl ≤ lv
  · rw [cancelUntil_noop hl]; exact h
  · obtain ⟨c, hq⟩ := cancelUntil_cut (low := low) (Nat.lt_of_not_le hl)
    exact h.cut c (by rw [hq]; omega)

theorem cancelUntil_dl {s : Stk} {low : Nat → Bool} {lv : Nat} : (s.cancelUntil low lv).dl = min lv s.dl := by
  by_cases hl : s.dl ≤ lv
  · rw [cancelUntil_noop hl]; omega
  · obtain ⟨c, hq⟩ := cancelUntil_cut (low := low) (Nat.lt_of_not_le hl)
    unfold dl; rw [c.lm]; simp

theorem cancelUntil_saved {s : Stk} {low : Nat → Bool} {lv : Nat} (h : lv < s.dl) :
    ((s.cancelUntil low lv).saved = [] ∨
      (s.cancelUntil low lv).saved = (s.trail.drop (s.lim.getD lv 0)).take (s.lim.getD (s.dl - 2) 0 - s.lim.getD lv 0)) ∧
    ∀ v ∈ (s.cancelUntil low lv).saved.map Lit.var, (s.cancelUntil low lv).reasonSaved v = s.reason v := by
  have : ¬ s.dl ≤ lv := by omega
  simp only [cancelUntil, this, if_false, unassignFrom]
  unfold saveTrail
  simp only []
  split
  · refine ⟨.inr rfl, fun v hv => ?_⟩
    simp only [] at hv ⊢
    rw [if_pos hv]
  · exact ⟨.inl rfl, fun v hv => by simp at hv⟩

theorem savedOK_nil {db : Cdb} {s : Stk} (h : s.saved = []) : SavedOK db s := by
  intro pre l post e; rw [h] at e; simp at e

theorem SavedOK.cancelUntil {db : Cdb} {s : Stk} (hi : Inv db s) (h : SavedOK db s) (low : Nat → Bool) (lv : Nat) :
    SavedOK db (s.cancelUntil low lv) := by
  by_cases hl : s.dl ≤ lv
  · rw [cancelUntil_noop hl]; exact h
  · have hlt := Nat.lt_of_not_le hl
    obtain ⟨c, -⟩ := cancelUntil_cut (low := low) hlt
    obtain ⟨s1, s2⟩ := cancelUntil_saved (low := low) hlt
    rcases s1 with s1 | s1
    · exact savedOK_nil s1
    · intro pre l post e
      set k := s.lim.getD lv 0 with hk
      have hmem : l ∈ (s.cancelUntil low lv).saved := by rw [e]; simp
      have hrs := s2 l.var (List.mem_map_of_mem hmem)
      rw [s1] at e
      obtain ⟨e1, -⟩ := take_split e
      have e2 : s.trail = (s.trail.take k ++ pre) ++ l :: (post ++ (s.trail.drop k).drop (s.lim.getD (s.dl - 2) 0 - k)) := by
        conv_lhs => rw [← List.take_append_drop k s.trail, e1]
        simp
      have hr := hi.rs _ _ _ e2
      have hb : ∀ m, s.Before (s.trail.take k ++ pre) m → (s.cancelUntil low lv).tr m ∨ m ∈ pre := by
        intro m hb
        rcases hb.2 with hm | hm
        · rcases List.mem_append.1 hm with hm | hm
          · exact .inl (c.tr_of hb.1 (hi.not_dropped hm))
          · exact .inr hm
        · refine .inl (c.tr_of hb.1 fun hv => hm ?_)
          exact List.Sublist.subset (List.Sublist.map _ (List.drop_sublist k s.trail)) hv
      unfold SavedAt ReasonOK at *
      rw [hrs]
      cases hrl : s.reason l.var <;> rw [hrl] at hr <;> simp only [] at hr ⊢
      · exact ⟨hr.1, hb _ hr.2⟩
      · obtain ⟨rest, r1, r2⟩ := hr
        refine ⟨by rw [r1]; simp, fun x hx => ?_, fun _ => by rw [r1]; rfl⟩
        rw [r1] at hx; rcases List.mem_cons.1 hx with rfl | hx
        · exact .inl rfl
        · exact .inr (hb _ (r2 x hx))

theorem backtrackSandbox_cut {s : Stk} (h : s.lim ≠ []) :
    Cut s s.backtrackSandbox 0 (s.lim.getD 0 0) ∧ s.backtrackSandbox.qhead = (s.trail.take (s.lim.getD 0 0)).length := by
  simp only [backtrackSandbox, h, if_false]
  exact ⟨⟨getD_some (List.length_pos_iff.2 h), rfl, rfl, rfl, by simp, rfl⟩, trivial⟩

theorem Inv.backtrackSandbox {db : Cdb} {s : Stk} (h : Inv db s) : Inv db s.backtrackSandbox := by
  by_cases hl : s.lim = []
  · simp [Stk.backtrackSandbox, hl]; exact h
  · obtain ⟨c, hq⟩ := backtrackSandbox_cut hl
    exact h.cut c (by rw [hq, List.length_take]; omega)

theorem Inv.clearSaved {db : Cdb} {s : Stk} (h : Inv db s) : Inv db s.clearSaved :=
  h.congr rfl rfl rfl rfl rfl h.qh (fun _ _ _ h _ => h) (fun _ _ h => h)

/-- At the root level every assigned variable has level 0. -/
theorem Inv.level_root {db : Cdb} {s : Stk} (h : Inv db s) (hl : s.lim = []) {v : Nat} (ha : s.assign v ≠ none) : s.level v = 0 := by
  by_cases hv : v ∈ s.trail.map Lit.var
  · obtain ⟨l, hm, rfl⟩ := List.mem_map.1 hv
    obtain ⟨pre, post, e⟩ := List.append_of_mem hm
    rw [h.lev _ _ _ e, hl]; rfl
  · exact h.arch v ha hv

theorem cancelUntil_lim0 {s : Stk} {low : Nat → Bool} : (s.cancelUntil low 0).lim = [] := by
  have := cancelUntil_dl (s := s) (low := low) (lv := 0)
  unfold dl at this; simpa using this

/-- The outcome of a root-level assignment. -/
theorem Inv.assignRoot {db : Cdb} {s : Stk} (h : Inv db s) (low : Nat → Bool) (l : Lit) :
    Inv db (s.assignRoot low l).1 ∧ (s.assignRoot low l).1.lim = [] ∧
    ((s.cancelUntil low 0).assign l.var = none ∧ (s.assignRoot low l).2 = true ∧
        (s.assignRoot low l).1.assign = upd (s.cancelUntil low 0).assign l.var (some l.pos) ∧
        (s.assignRoot low l).1.trail = (s.cancelUntil low 0).trail ++ [l] ∨
      (s.cancelUntil low 0).tr l ∧ (s.assignRoot low l).2 = true ∧
        (s.assignRoot low l).1.assign = (s.cancelUntil low 0).assign ∧
        (s.assignRoot low l).1.trail = (s.cancelUntil low 0).trail ∨
      (s.cancelUntil low 0).tr l.neg ∧ (s.assignRoot low l).2 = false ∧
        (s.assignRoot low l).1.assign = (s.cancelUntil low 0).assign ∧
        (s.assignRoot low l).1.trail = (s.cancelUntil low 0).trail) := by
  have h1 := h.cancelUntil low 0
  have hl := cancelUntil_lim0 (s := s) (low := low)
  unfold Stk.assignRoot
  simp only []
  generalize s.cancelUntil low 0 = t at *
  cases ha : t.assign l.var with
  | none =>
    refine ⟨?_, hl, .inl ⟨rfl, rfl, rfl, rfl⟩⟩
    refine h1.push ha (.decision 0) false rfl rfl (by simp; rfl) ?_ ?_ rfl (by simp [hl])
    · show upd t.level l.var 0 = upd t.level l.var t.lim.length
      rw [hl]; rfl
    · rfl
  | some x =>
    have hlv : upd t.level l.var 0 = t.level := by
      funext v; simp only [upd_apply]; split
      · rename_i e; subst e; exact (h1.level_root hl (by rw [ha]; simp)).symm
      · rfl
    refine ⟨h1.congr rfl hlv rfl rfl rfl h1.qh (fun _ _ _ h _ => h) (fun _ _ h => h), hl, ?_⟩
    right
    by_cases e : x = l.pos
    · left; refine ⟨by unfold tr; rw [ha, e], by simp [e], rfl, rfl⟩
    · right; refine ⟨by unfold tr; rw [Lit.neg_var, ha]; cases x <;> cases hp : l.pos <;> simp_all, by simp [e], rfl, rfl⟩

/-- Eliminating an unassigned variable. -/
theorem makeEliminated_fields {db : Cdb} {s : Stk} (h : Inv db s) {v : Nat} (hv : s.assign v = none) :
    (s.makeEliminated v).assign = s.assign ∧ (s.makeEliminated v).level = s.level ∧ (s.makeEliminated v).reason = s.reason ∧
    (s.makeEliminated v).trail = s.trail ∧ (s.makeEliminated v).lim = s.lim ∧ (s.makeEliminated v).qhead = s.qhead ∧
    (s.makeEliminated v).saved = s.saved ∧ (s.makeEliminated v).reasonSaved = s.reasonSaved ∧
    (s.makeEliminated v).elim = upd s.elim v true ∧ (s.makeEliminated v).numVars = s.numVars := by
  unfold makeEliminated
  split
  · rename_i e
    refine ⟨rfl, rfl, rfl, rfl, rfl, rfl, rfl, rfl, ?_, rfl⟩
    funext w; simp only [upd_apply]; split
    · rename_i e2; rw [e2, e]
    · rfl
  · refine ⟨rfl, rfl, rfl, ?_, rfl, rfl, rfl, rfl, rfl, rfl⟩
    simp only []
    rw [List.filter_eq_self]
    intro l hl; simp
    intro e; have := h.tv l hl; unfold tr at this; rw [e, hv] at this; simp at this

theorem Inv.makeEliminated {db : Cdb} {s : Stk} (h : Inv db s) {v : Nat} (hv : s.assign v = none) : Inv db (s.makeEliminated v) := by
  obtain ⟨f1, f2, f3, f4, f5, f6, -⟩ := makeEliminated_fields h hv
  exact h.congr f1 f2 f3 f4 f5 (by rw [f6]; exact h.qh) (fun _ _ _ h _ => h) (fun _ _ h => h)

/-- Wiping the trail at the root level. -/
theorem Inv.archive {db : Cdb} {s s' : Stk} (h : Inv db s) (hl : s.lim = []) (h1 : s'.assign = s.assign) (h2 : s'.level = s.level)
    (h3 : s'.reason = s.reason) (h4 : s'.trail = []) (h5 : s'.lim = s.lim) (h6 : s'.qhead = 0) : Inv db s' := by
  refine ⟨by rw [h4]; simp, by rw [h4]; simp, ?_, ?_, ?_, by rw [h5, hl]; simp, by rw [h5]; exact h.limInc, by rw [h6]; simp, ?_, ?_, ?_⟩
  · intro v ha _; rw [h2]; exact h.level_root hl (by rw [← h1]; exact ha)
  · rw [h1, h2, h3]; exact h.root
  · rw [h1, h3]; exact h.un
  all_goals intro pre l post e; rw [h4] at e; simp at e

/-- At the root level no reason refers to a clause, so the database may change arbitrarily. -/
theorem Inv.root_db {db db' : Cdb} {s : Stk} (h : Inv db s) (hl : s.lim = []) : Inv db' s := by
  refine ⟨h.nd, h.tv, h.arch, h.root, h.un, h.limLt, h.limInc, h.qh, h.lev, h.dec, ?_⟩
  intro pre l post e
  have ht := h.tv l (by rw [e]; simp)
  have hlv := h.level_root hl (tr_assigned ht)
  unfold ReasonOK
  rw [h.root l.var (tr_assigned ht) hlv]
  exact ⟨hlv, fun h => absurd h (by omega)⟩

theorem inv_new (db : Cdb) (nv : Nat) : Inv db (Stk.new nv) := by
  refine ⟨by simp [new], by simp [new], by simp [new], by simp [new], by simp [new], by simp [new], by simp [new],
    by simp [new], ?_, ?_, ?_⟩
  all_goals intro pre l post e; simp [new] at e

end Stk
end Splr
