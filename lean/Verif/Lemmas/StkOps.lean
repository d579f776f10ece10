import Verif.Lemmas.StkInv
/-! The operations of the assignment stack preserve its invariant. -/
namespace Splr
namespace Stk

/-! ## fields -/

@[simp] theorem insertHeaps_assign (s : Stk) (vs : List Nat) : (s.insertHeaps vs).assign = s.assign := rfl
@[simp] theorem insertHeaps_level (s : Stk) (vs : List Nat) : (s.insertHeaps vs).level = s.level := rfl
@[simp] theorem insertHeaps_reason (s : Stk) (vs : List Nat) : (s.insertHeaps vs).reason = s.reason := rfl
@[simp] theorem insertHeaps_trail (s : Stk) (vs : List Nat) : (s.insertHeaps vs).trail = s.trail := rfl
@[simp] theorem insertHeaps_lim (s : Stk) (vs : List Nat) : (s.insertHeaps vs).lim = s.lim := rfl
@[simp] theorem insertHeaps_qhead (s : Stk) (vs : List Nat) : (s.insertHeaps vs).qhead = s.qhead := rfl
@[simp] theorem insertHeaps_saved (s : Stk) (vs : List Nat) : (s.insertHeaps vs).saved = s.saved := rfl
@[simp] theorem insertHeaps_reasonSaved (s : Stk) (vs : List Nat) : (s.insertHeaps vs).reasonSaved = s.reasonSaved := rfl
@[simp] theorem insertHeaps_elim (s : Stk) (vs : List Nat) : (s.insertHeaps vs).elim = s.elim := rfl
@[simp] theorem insertHeaps_numVars (s : Stk) (vs : List Nat) : (s.insertHeaps vs).numVars = s.numVars := rfl

@[simp] theorem clearSaved_assign (s : Stk) : s.clearSaved.assign = s.assign := rfl
@[simp] theorem clearSaved_level (s : Stk) : s.clearSaved.level = s.level := rfl
@[simp] theorem clearSaved_reason (s : Stk) : s.clearSaved.reason = s.reason := rfl
@[simp] theorem clearSaved_trail (s : Stk) : s.clearSaved.trail = s.trail := rfl
@[simp] theorem clearSaved_lim (s : Stk) : s.clearSaved.lim = s.lim := rfl
@[simp] theorem clearSaved_qhead (s : Stk) : s.clearSaved.qhead = s.qhead := rfl
@[simp] theorem clearSaved_saved (s : Stk) : s.clearSaved.saved = [] := rfl
@[simp] theorem clearSaved_elim (s : Stk) : s.clearSaved.elim = s.elim := rfl
@[simp] theorem clearSaved_numVars (s : Stk) : s.clearSaved.numVars = s.numVars := rfl

theorem saveTrail_fields (s : Stk) (low : Nat → Bool) (lv : Nat) : (s.saveTrail low lv).assign = s.assign ∧
    (s.saveTrail low lv).level = s.level ∧ (s.saveTrail low lv).reason = s.reason ∧ (s.saveTrail low lv).trail = s.trail ∧
    (s.saveTrail low lv).lim = s.lim ∧ (s.saveTrail low lv).qhead = s.qhead ∧ (s.saveTrail low lv).elim = s.elim ∧
    (s.saveTrail low lv).numVars = s.numVars ∧ (s.saveTrail low lv).numAsserted = s.numAsserted ∧
    (s.saveTrail low lv).numElim = s.numElim := by
  unfold saveTrail; simp only []; split <;> exact ⟨rfl, rfl, rfl, rfl, rfl, rfl, rfl, rfl, rfl, rfl⟩

theorem assignImpl_fields (s : Stk) (l : Lit) (r : Reason) (lv : Nat) :
    (s.assignImpl l r lv).assign = upd s.assign l.var (some l.pos) ∧ (s.assignImpl l r lv).level = upd s.level l.var lv ∧
    (s.assignImpl l r lv).reason = upd s.reason l.var (if lv = 0 then .decision 0 else r) ∧
    (s.assignImpl l r lv).trail = s.trail ++ [l] ∧ (s.assignImpl l r lv).lim = s.lim ∧ (s.assignImpl l r lv).qhead = s.qhead ∧
    (s.assignImpl l r lv).saved = s.saved ∧ (s.assignImpl l r lv).reasonSaved = s.reasonSaved ∧
    (s.assignImpl l r lv).elim = s.elim ∧ (s.assignImpl l r lv).numVars = s.numVars := by
  unfold assignImpl; simp only []; split
  · refine ⟨rfl, rfl, ?_, rfl, rfl, rfl, rfl, rfl, rfl, rfl⟩
    simp only [makeAsserted]; funext v; simp only [upd_apply]; split <;> rfl
  · exact ⟨rfl, rfl, rfl, rfl, rfl, rfl, rfl, rfl, rfl, rfl⟩

/-! ## congruence -/

theorem Before.congr {s s' : Stk} (h1 : s'.assign = s.assign) (h2 : s'.trail = s.trail) {pre : List Lit} {m : Lit} :
    s'.Before pre m ↔ s.Before pre m := by unfold Before tr; rw [h1, h2]

/-- The invariant does not depend on the saved trail, the heap and the counters, and on the database only through reasons. -/
theorem Inv.congr {db db' : Cdb} {s s' : Stk} (h : Inv db s) (h1 : s'.assign = s.assign) (h2 : s'.level = s.level)
    (h3 : s'.reason = s.reason) (h4 : s'.trail = s.trail) (h5 : s'.lim = s.lim) (h6 : s'.qhead ≤ s.trail.length)
    (hc : ∀ cid l rest, (db.clause cid).lits = l :: rest → s.tr l → (db'.clause cid).lits = l :: rest)
    (hb : ∀ a b, BinC db a b → BinC db' a b) : Inv db' s' := by
  refine ⟨?_, ?_, ?_, ?_, ?_, ?_, ?_, ?_, ?_, ?_, ?_⟩
  · rw [h4]; exact h.nd
  · unfold tr; rw [h4, h1]; exact h.tv
  · rw [h1, h4, h2]; exact h.arch
  · rw [h1, h2, h3]; exact h.root
  · rw [h1, h3]; exact h.un
  · rw [h5, h4]; exact h.limLt
  · rw [h5]; exact h.limInc
  · rw [h4]; exact h6
  · rw [h4, h2, h5]; exact h.lev
  · rw [h4, h5, h3, h2]; exact h.dec
  · intro pre l post e
    rw [h4] at e
    have hr := h.rs pre l post e
    have hl : s.tr l := h.tv l (by rw [e]; simp)
    unfold ReasonOK at *
    rw [h3]
    cases hrl : s.reason l.var <;> rw [hrl] at hr <;> simp only [] at hr ⊢
    · rw [h2, h5]; exact hr
    · exact ⟨hb _ _ hr.1, (Before.congr h1 h4).2 hr.2⟩
    · obtain ⟨rest, e1, e2⟩ := hr
      exact ⟨rest, hc _ _ _ e1 hl, fun x hx => (Before.congr h1 h4).2 (e2 x hx)⟩

theorem SavedOK.congr {db db' : Cdb} {s s' : Stk} (h : SavedOK db s) (h1 : s'.assign = s.assign)
    (h2 : s'.saved = s.saved) (h3 : s'.reasonSaved = s.reasonSaved)
    (hm : ∀ i l, l ∈ (db'.clause i).lits ↔ l ∈ (db.clause i).lits) (hb : ∀ a b, BinC db a b → BinC db' a b)
    (hc : ∀ cid l, s.assign l.var = none → (db.clause cid).lits[0]? = some l → (db'.clause cid).lits[0]? = some l) :
    SavedOK db' s' := by
  intro pre l post e
  rw [h2] at e
  have hr := h pre l post e
  unfold SavedAt at *
  rw [h3]
  cases hrl : s.reasonSaved l.var <;> rw [hrl] at hr <;> simp only [] at hr ⊢
  · exact ⟨hb _ _ hr.1, by unfold tr; rw [h1]; exact hr.2⟩
  · refine ⟨(hm _ _).2 hr.1, fun x hx => ?_, fun hn => hc _ _ (by rw [← h1]; exact hn) (hr.2.2 (by rw [← h1]; exact hn))⟩
    unfold tr; rw [h1]; exact hr.2.1 x ((hm _ _).1 hx)

/-- The saved trail survives when the clauses it refers to do. -/
theorem SavedOK.grow {db db' : Cdb} {s s' : Stk} (h : SavedOK db s) (h1 : s'.assign = s.assign)
    (h2 : s'.saved = s.saved) (h3 : s'.reasonSaved = s.reasonSaved)
    (hm : ∀ i, (db.clause i).lits ≠ [] → (db'.clause i).lits = (db.clause i).lits) : SavedOK db' s' := by
  intro pre l post e
  rw [h2] at e
  have hr := h pre l post e
  unfold SavedAt at *
  rw [h3]
  cases hrl : s.reasonSaved l.var <;> rw [hrl] at hr <;> simp only [] at hr ⊢
  · obtain ⟨⟨i, hi⟩, h4⟩ := hr
    refine ⟨⟨i, ?_⟩, by unfold tr; rw [h1]; exact h4⟩
    rw [hm i (by rcases hi with e | e <;> rw [e] <;> simp)]; exact hi
  · rw [hm _ (List.ne_nil_of_mem hr.1)]
    unfold tr; rw [h1]; exact hr

theorem Inv.grow {db db' : Cdb} {s : Stk} (h : Inv db s)
    (hm : ∀ i, (db.clause i).lits ≠ [] → (db'.clause i).lits = (db.clause i).lits) : Inv db' s :=
  h.congr rfl rfl rfl rfl rfl h.qh (fun i _ _ e _ => by rw [hm i (by rw [e]; simp)]; exact e)
    (fun a b hb => by
      obtain ⟨i, hi⟩ := hb
      exact ⟨i, by rw [hm i (by rcases hi with e | e <;> rw [e] <;> simp)]; exact hi⟩)

/-! ## assignments -/

theorem tr_upd {s s' : Stk} {l : Lit} (hn : s.assign l.var = none) (h1 : s'.assign = upd s.assign l.var (some l.pos)) {m : Lit}
    (hm : s.tr m) : s'.tr m := by
  unfold tr at *; rw [h1]
  have : m.var ≠ l.var := by intro e; rw [e, hn] at hm; simp at hm
  rw [upd_of_ne _ _ this]; exact hm

theorem Before.mono {s s' : Stk} {l : Lit} (hn : s.assign l.var = none) (h1 : s'.assign = upd s.assign l.var (some l.pos))
    (h2 : s'.trail = s.trail ++ [l]) {pre : List Lit} {m : Lit} (hb : s.Before pre m) : s'.Before pre m := by
  refine ⟨tr_upd hn h1 hb.1, ?_⟩
  rcases hb.2 with h | h
  · exact .inl h
  · right; rw [h2]; simp only [List.map_append, List.map_cons, List.map_nil, List.mem_append, List.mem_singleton, not_or]
    refine ⟨h, fun e => ?_⟩
    have := hb.1; unfold tr at this; rw [e, hn] at this; simp at this

theorem countP_lim_all {lim : List Nat} {n : Nat} (h : ∀ k ∈ lim, k < n) : lim.countP (· ≤ n) = lim.length := by
  rw [List.countP_eq_length]; intro k hk; have := h k hk; simp; omega

/-- The reason `r` makes `l` true: all other literals of the clause are false. -/
def Implied (db : Cdb) (s : Stk) (l : Lit) : Reason → Prop
  | .binary m => BinC db l m.neg ∧ s.tr m
  | .impl cid => ∃ rest, (db.clause cid).lits = l :: rest ∧ ∀ x ∈ rest, s.tr x.neg
  | _ => False

/-- Assigning an undecided variable at the current level, or as a new decision. -/
theorem Inv.push {db : Cdb} {s s' : Stk} (h : Inv db s) {l : Lit} (hn : s.assign l.var = none) (r : Reason) (new : Bool)
    (h1 : s'.assign = upd s.assign l.var (some l.pos)) (h2 : s'.trail = s.trail ++ [l])
    (h3 : s'.lim = if new then s.lim ++ [s.trail.length] else s.lim)
    (h4 : s'.level = upd s.level l.var s'.lim.length) (h5 : s'.reason = upd s.reason l.var r)
    (h6 : s'.qhead = s.qhead)
    (hr : if new then r = .decision (s.lim.length + 1) else
      if s.lim.length = 0 then r = .decision 0 else
        Implied db s l r) : Inv db s' := by
  have hnt : l.var ∉ s.trail.map Lit.var := by
    intro hv; obtain ⟨x, hx, e⟩ := List.mem_map.1 hv
    have := h.tv x hx; unfold tr at this; rw [e, hn] at this; simp at this
  have hne : ∀ pre x post, s.trail = pre ++ x :: post → x.var ≠ l.var := by
    intro pre x post e ev; exact hnt (List.mem_map.2 ⟨x, by rw [e]; simp, ev⟩)
  have hL : s'.lim.length = s.lim.length + (if new then 1 else 0) := by rw [h3]; split <;> simp
  have hcnt : ∀ n, n < s.trail.length → s'.lim.countP (· ≤ n) = s.lim.countP (· ≤ n) := by
    intro n hlt; rw [h3]; split
    · rw [List.countP_append]; simp; omega
    · rfl
  have hcntN : s'.lim.countP (· ≤ s.trail.length) = s'.lim.length := by
    rw [h3]; split
    · rw [List.countP_append, countP_lim_all h.limLt]; simp
    · exact countP_lim_all h.limLt
  refine ⟨?_, ?_, ?_, ?_, ?_, ?_, ?_, ?_, ?_, ?_, ?_⟩
  · rw [h2, List.map_append, List.nodup_append]
    refine ⟨h.nd, by simp, ?_⟩
    intro a ha b hb e
    simp at hb; subst hb; exact hnt (e ▸ ha)
  · intro x hx
    rw [h2] at hx; rcases List.mem_append.1 hx with hx | hx
    · exact tr_upd hn h1 (h.tv x hx)
    · simp at hx; subst hx; unfold tr; rw [h1]; simp [upd]
  · intro v ha hv
    rw [h2] at hv; simp only [List.map_append, List.map_cons, List.map_nil, List.mem_append, List.mem_singleton, not_or] at hv
    rw [h4, upd_of_ne _ _ hv.2]
    rw [h1, upd_of_ne _ _ hv.2] at ha
    exact h.arch v ha hv.1
  · intro v ha hl
    by_cases e : v = l.var
    · subst e
      rw [h5]; simp only [upd, if_true]
      rw [h4] at hl; simp only [upd, if_true] at hl
      rw [hL] at hl
      cases new
      · simp at hl; simp [hl] at hr; rw [hr]
      · simp at hl
    · rw [h5, upd_of_ne _ _ e]; rw [h4, upd_of_ne _ _ e] at hl; rw [h1, upd_of_ne _ _ e] at ha
      exact h.root v ha hl
  · intro v ha
    by_cases e : v = l.var
    · subst e; rw [h1] at ha; simp [upd] at ha
    · rw [h5, upd_of_ne _ _ e]; rw [h1, upd_of_ne _ _ e] at ha; exact h.un v ha
  · intro k hk
    rw [h2, List.length_append]; simp
    rw [h3] at hk; split at hk
    · rcases List.mem_append.1 hk with hk | hk
      · have := h.limLt k hk; omega
      · simp at hk; omega
    · have := h.limLt k hk; omega
  · rw [h3]; split
    · rw [List.pairwise_append]; exact ⟨h.limInc, by simp, fun a ha b hb => by simp at hb; subst hb; exact h.limLt a ha⟩
    · exact h.limInc
  · rw [h6, h2, List.length_append]; have := h.qh; omega
  · intro pre x post e
    rw [h2] at e
    rcases split_append e with ⟨rfl, rfl, rfl⟩ | ⟨post', rfl, e'⟩
    · rw [h4, hcntN]; simp [upd]
    · rw [h4, upd_of_ne _ _ (hne _ _ _ e'), hcnt _ (by rw [e']; simp), h.lev _ _ _ e']
  · intro pre x post e hm
    rw [h2] at e
    rcases split_append e with ⟨rfl, rfl, rfl⟩ | ⟨post', rfl, e'⟩
    · rw [h5, h4]; simp only [upd, if_true]
      cases new
      · simp at h3; rw [h3] at hm; have := h.limLt _ hm; omega
      · simp at hr; rw [hr, hL]; simp
    · have hx := hne _ _ _ e'
      rw [h5, upd_of_ne _ _ hx, h4, upd_of_ne _ _ hx]
      refine h.dec _ _ _ e' ?_
      rw [h3] at hm; split at hm
      · rcases List.mem_append.1 hm with hm | hm
        · exact hm
        · simp at hm; rw [e'] at hm; simp at hm
      · exact hm
  · intro pre x post e
    rw [h2] at e
    rcases split_append e with ⟨rfl, rfl, rfl⟩ | ⟨post', rfl, e'⟩
    · unfold ReasonOK
      rw [h5]; simp only [upd, if_true]
      cases new
      · simp only [Bool.false_eq_true, if_false] at hr
        split at hr
        · rename_i h0; rw [hr]; simp only []; rw [h4, hL, h0]; simp [upd]
        · cases r with
          | none => exact hr
          | decision k => exact hr.elim
          | binary m => exact ⟨hr.1, Before.mono hn h1 h2 (h.before_end hr.2)⟩
          | impl cid =>
            obtain ⟨rest, e1, e2⟩ := hr
            exact ⟨rest, e1, fun y hy => Before.mono hn h1 h2 (h.before_end (e2 y hy))⟩
      · simp only [if_true] at hr; rw [hr]; simp only []
        rw [h4, hL, h3]; simp [upd]
    · have hx := hne _ _ _ e'
      have hrr := h.rs _ _ _ e'
      unfold ReasonOK at *
      rw [h5, upd_of_ne _ _ hx]
      cases hrl : s.reason x.var <;> rw [hrl] at hrr <;> simp only [] at hrr ⊢
      · rw [h4, upd_of_ne _ _ hx]; refine ⟨hrr.1, fun hk => ?_⟩
        rw [h3]; split
        · rw [List.getElem?_append_left]
          · exact hrr.2 hk
          · exact (List.getElem?_eq_some_iff.1 (hrr.2 hk)).1
        · exact hrr.2 hk
      · exact ⟨hrr.1, Before.mono hn h1 h2 hrr.2⟩
      · obtain ⟨rest, e1, e2⟩ := hrr
        exact ⟨rest, e1, fun y hy => Before.mono hn h1 h2 (e2 y hy)⟩

theorem Inv.assignImpl {db : Cdb} {s : Stk} (h : Inv db s) {l : Lit} (hn : s.assign l.var = none) {r : Reason}
    (hr : Implied db s l r) : Inv db (s.assignImpl l r s.dl) := by
  obtain ⟨f1, f2, f3, f4, f5, f6, -⟩ := assignImpl_fields s l r s.dl
  refine h.push hn (if s.dl = 0 then .decision 0 else r) false f1 f4 (by simpa using f5) (by rw [f2, f5]; rfl) f3 f6 ?_
  simp only [Bool.false_eq_true, if_false]
  unfold dl
  by_cases e : s.lim.length = 0
  · rw [if_pos e, if_pos e]
  · rw [if_neg e, if_neg e]; exact hr

theorem Inv.assignDecision {db : Cdb} {s : Stk} (h : Inv db s) {l : Lit} (hn : s.assign l.var = none) :
    Inv db (s.assignDecision l) := by
  refine h.push hn (.decision (s.dl + 1)) true rfl rfl rfl ?_ rfl rfl ?_
  · show upd s.level l.var (s.dl + 1) = upd s.level l.var (s.lim ++ [s.trail.length]).length
    simp [dl]
  · simp [dl]

theorem SavedOK.push {db : Cdb} {s s' : Stk} (h : SavedOK db s) {l : Lit} (hn : s.assign l.var = none)
    (h1 : s'.assign = upd s.assign l.var (some l.pos)) (h2 : s'.saved = s.saved) (h3 : s'.reasonSaved = s.reasonSaved) :
    SavedOK db s' := by
  intro pre x post e
  rw [h2] at e
  have hr := h pre x post e
  unfold SavedAt at *
  rw [h3]
  cases hrl : s.reasonSaved x.var <;> rw [hrl] at hr <;> simp only [] at hr ⊢
  · exact ⟨hr.1, hr.2.imp (tr_upd hn h1) id⟩
  · refine ⟨hr.1, fun y hy => ?_, fun hnn => hr.2.2 ?_⟩
    · rcases hr.2.1 y hy with e | e | e
      · exact .inl e
      · exact .inr (.inl (tr_upd hn h1 e))
      · exact .inr (.inr e)
    · rw [h1] at hnn
      by_cases e : x.var = l.var
      · rw [e] at hnn; simp [upd] at hnn
      · rwa [upd_of_ne _ _ e] at hnn

end Stk
end Splr
