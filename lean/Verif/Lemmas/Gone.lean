import Verif.Lemmas.WatchSearch
import Verif.Lemmas.ElimShrink
/-! Variables that were removed from the trail of asserted literals do not come back in clauses. -/
namespace Splr
open Stk

/-- Assigned, and no longer on the trail. -/
def Gone (s : Stk) (v : Nat) : Prop := s.assign v ≠ none ∧ v ∉ s.trail.map Lit.var

/-- No clause contains such a variable. -/
def AC (db : Cdb) (s : Stk) : Prop := ∀ v, InCls db v → ¬ Gone s v

/-- No clause contains an assigned variable. -/
def Spotless (db : Cdb) (s : Stk) : Prop := ∀ v, InCls db v → s.assign v = none

theorem Spotless.ac {db : Cdb} {s : Stk} (h : Spotless db s) : AC db s := fun v hv hg => hg.1 (h v hv)

theorem AC.step {db db' : Cdb} {s s' : Stk} (h : AC db s) (hd : ∀ v, InCls db' v → InCls db v) (hs : ∀ v, Gone s' v → Gone s v) : AC db' s' :=
  fun v hv hg => h v (hd v hv) (hs v hg)

theorem AC.fields {db : Cdb} {s s' : Stk} (h : AC db s) (ha : s'.assign = s.assign) (ht : s'.trail = s.trail) : AC db s' :=
  h.step (fun _ h => h) fun v hv => by unfold Gone at *; rw [ha, ht] at hv; exact hv

theorem InCls.lits {db db' : Cdb} (h : ∀ i, (db'.clause i).lits = (db.clause i).lits) {v : Nat} (hv : InCls db' v) : InCls db v := by
  obtain ⟨i, y, h1, h2⟩ := hv
  exact ⟨i, y, by rw [← h i]; exact h1, h2⟩

theorem InCls.shr {db db' : Cdb} (h : Shr db db') {v : Nat} (hv : InCls db' v) : InCls db v := by
  obtain ⟨i, y, h1, h2⟩ := hv
  exact ⟨i, y, h i y h1, h2⟩

theorem InCls.supp {db db' : Cdb} (h : Supp db db') {v : Nat} (hv : InCls db' v) : InCls db v := by
  obtain ⟨i, y, h1, h2⟩ := hv
  obtain ⟨j, hj⟩ := h y ⟨i, h1⟩
  exact ⟨j, y, hj, h2⟩

theorem InCls.same {db db' : Cdb} (h : Cdb.Same db db') {v : Nat} (hv : InCls db' v) : InCls db v := by
  obtain ⟨i, y, h1, h2⟩ := hv
  exact ⟨i, y, (h.perm i).mem_iff.1 h1, h2⟩

/-! ## the stack -/

theorem gone_push {s s' : Stk} {l : Lit} {b : Option Bool} (ha : s'.assign = upd s.assign l.var b) (ht : s'.trail = s.trail ++ [l]) {v : Nat} (h : Gone s' v) : Gone s v := by
  obtain ⟨h1, h2⟩ := h
  rw [ht, List.map_append, List.mem_append, not_or] at h2
  have hne : v ≠ l.var := by simpa using h2.2
  rw [ha, upd_of_ne _ _ hne] at h1
  exact ⟨h1, h2.1⟩

theorem gone_cut {s s' : Stk} {lv k : Nat} (c : Cut s s' lv k) {v : Nat} (h : Gone s' v) : Gone s v := by
  obtain ⟨h1, h2⟩ := h
  obtain ⟨k1, k2, -⟩ := c.keep h1
  refine ⟨by rw [← k2]; exact h1, fun hm => ?_⟩
  rw [c.tr] at h2
  rw [← List.take_append_drop k s.trail, List.map_append, List.mem_append] at hm
  exact hm.elim h2 k1

theorem gone_cancelUntil {s : Stk} {low : Nat → Bool} {lv v : Nat} (h : Gone (s.cancelUntil low lv) v) : Gone s v := by
  by_cases hlv : lv < s.dl
  · exact gone_cut (cancelUntil_cut hlv).1 h
  · rw [cancelUntil_noop (by omega)] at h; exact h

theorem gone_backtrackSandbox {s : Stk} {v : Nat} (h : Gone s.backtrackSandbox v) : Gone s v := by
  by_cases hl : s.lim = []
  · have : s.backtrackSandbox = s := by simp [Stk.backtrackSandbox, hl]
    rw [this] at h; exact h
  · exact gone_cut (backtrackSandbox_cut hl).1 h

theorem gone_assignRoot {s : Stk} {low : Nat → Bool} {l : Lit} {v : Nat} (h : Gone (s.assignRoot low l).1 v) : Gone s v := by
  unfold Stk.assignRoot at h
  simp only [] at h
  refine gone_cancelUntil (low := low) (lv := 0) ?_
  cases ha : (s.cancelUntil low 0).assign l.var with
  | none => rw [ha] at h; exact gone_push (b := some l.pos) rfl rfl h
  | some x => rw [ha] at h; exact h

theorem gone_assignRootRes {s : Stk} {db : Cdb} {l : Lit} {y : DS} (e : s.assignRootRes db l = .ok y) {v : Nat} (h : Gone y.2 v) : Gone s v := by
  unfold Stk.assignRootRes at e
  split at e
  · rename_i s1 heq
    cases e
    refine gone_assignRoot (low := noLow) (l := l) ?_
    rw [heq]; exact h
  · cases e

theorem insertHeaps_fields (vs : List Nat) (s : Stk) : (s.insertHeaps vs).assign = s.assign ∧ (s.insertHeaps vs).trail = s.trail := by
  unfold Stk.insertHeaps; exact ⟨rfl, rfl⟩

theorem PSteps.gone {db : Cdb} {s : Stk} {db' : Cdb} {s' : Stk} (h : PSteps db s db' s') : ∀ v, Gone s' v → Gone s v := by
  induction h with
  | refl => exact fun _ h => h
  | cons h _ ih =>
    intro v hv
    have hv := ih v hv
    cases h with
    | imply l r hn hr => exact gone_push (assignImpl_fields _ l r _).1 (assignImpl_fields _ l r _).2.2.2.1 hv
    | _ => exact hv

theorem AC.psteps {db : Cdb} {s : Stk} {db' : Cdb} {s' : Stk} (h : PSteps db s db' s') (hw : db.WF) (ha : AC db s) : AC db' s' :=
  ha.step (fun _ => InCls.same (h.same hw)) h.gone

end Splr
