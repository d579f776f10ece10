import Verif.Model.Queue
import Verif.Props.C12_C13_Heap
import Verif.Lemmas.Tr
/-!
# The array queue simulates the list of its members
-/
namespace Splr
open Heap Stk

theorem Heap.Represents.congr {h : VarHeap} {S S' : Nat → Prop} {n : Nat} (r : Represents h S n) (e : ∀ v, 1 ≤ v → v < n → (S v ↔ S' v)) :
    Represents h S' n := by
  have w := wf_of_represents r
  have m := mem_iff r
  obtain rfl := r.size
  exact represents_of_wf w fun v v1 v2 => by rw [m v v1 v2, e v v1 v2]

/-- The list of members, and all variables mentioned, are in range. -/
structure QDom (s : Stk) : Prop where
  tr : ∀ l ∈ s.trail, 1 ≤ l.var ∧ l.var ≤ s.numVars
  sv : ∀ l ∈ s.saved, 1 ≤ l.var ∧ l.var ≤ s.numVars
  hp : ∀ v ∈ s.heap, 1 ≤ v ∧ v ≤ s.numVars
  nd : s.heap.Nodup

/-- The state `x` with the array queue, and the state `s` with the list of its members. -/
structure QRel (s : Stk) (x : QStk) : Prop where
  same : { x.s with heap := s.heap } = s
  rep : Represents x.q (· ∈ s.heap) (s.numVars + 1)
  dom : QDom s

namespace QRel

theorem of {s : Stk} {x : QStk} (h : QRel s x) : ∃ hp, x.s = { s with heap := hp } := ⟨x.s.heap, by rw [← h.same]⟩

theorem insert {s : Stk} {x : QStk} (h : QRel s x) {v : Nat} (hv : 1 ≤ v ∧ v ≤ s.numVars) : ∃ x', x.insertQ v = some x' ∧ QRel (s.insertHeap v) x' ∧ x'.s = x.s := by
  obtain ⟨o, h', e, r, -⟩ := step_represents (x.act 0) h.rep (.insert v) ⟨hv.1, by omega⟩
  simp only [VarHeap.step, Option.map_eq_some_iff] at e
  obtain ⟨h1, e1, e2⟩ := e
  cases e2
  refine ⟨{ x with q := h', act := fun k => x.act (k + 1) }, by simp [QStk.insertQ, QStk.op, e1], ⟨?_, ?_, ?_⟩, rfl⟩
  · have := h.same
    simp only [insertHeap]
    rw [← this]
  · refine r.congr fun u _ _ => ?_
    simp [specStep, insertHeap]
  · refine ⟨h.dom.tr, h.dom.sv, fun u hu => ?_, h.dom.nd.insert⟩
    rcases List.mem_insert_iff.1 hu with rfl | hu
    · exact hv
    · exact h.dom.hp u hu

theorem inserts {s : Stk} {x : QStk} (h : QRel s x) {vs : List Nat} (hv : ∀ v ∈ vs, 1 ≤ v ∧ v ≤ s.numVars) :
    ∃ x', QStk.insertsQ vs x = some x' ∧ QRel (s.insertHeaps vs) x' ∧ x'.s = x.s := by
  induction vs generalizing s x with
  | nil => exact ⟨x, rfl, h, rfl⟩
  | cons v vs ih =>
    obtain ⟨x1, e1, h1, s1⟩ := h.insert (hv v (by simp))
    obtain ⟨x2, e2, h2, s2⟩ := ih h1 (fun u hu => hv u (by simp [hu]))
    exact ⟨x2, by simp [QStk.insertsQ, e1, e2], h2, s2.trans s1⟩

/-- The order of the list does not matter. -/
theorem heap_congr {s s' : Stk} {x : QStk} (h : QRel s x) (e : { s with heap := s'.heap } = s') (hm : ∀ v, v ∈ s'.heap ↔ v ∈ s.heap) (hn : s'.heap.Nodup) :
    QRel s' x := by
  have h1 : s'.numVars = s.numVars := by rw [← e]
  have h2 : s'.trail = s.trail := by rw [← e]
  have h3 : s'.saved = s.saved := by rw [← e]
  refine ⟨?_, ?_, ⟨?_, ?_, ?_, hn⟩⟩
  · rw [← e, ← h.same]
  · rw [h1]; exact h.rep.congr fun v _ _ => (hm v).symm
  · rw [h1, h2]; exact h.dom.tr
  · rw [h1, h3]; exact h.dom.sv
  · rw [h1]; exact fun v hv => h.dom.hp v ((hm v).1 hv)

theorem remove {s : Stk} {x : QStk} (h : QRel s x) {v : Nat} (hv : 1 ≤ v ∧ v ≤ s.numVars) :
    ∃ x', x.removeQ v = some x' ∧ QRel { s with heap := s.heap.filter (· ≠ v) } x' ∧ x'.s = x.s := by
  obtain ⟨o, h', e, r, -⟩ := step_represents (x.act 0) h.rep (.remove v) ⟨hv.1, by omega⟩
  simp only [VarHeap.step, Option.map_eq_some_iff] at e
  obtain ⟨h1, e1, e2⟩ := e
  cases e2
  refine ⟨{ x with q := h', act := fun k => x.act (k + 1) }, by simp [QStk.removeQ, QStk.op, e1], ⟨?_, ?_, ?_⟩, rfl⟩
  · have := h.same
    rw [← this]
  · refine r.congr fun u _ _ => ?_
    simp [specStep, and_comm]
  · exact ⟨h.dom.tr, h.dom.sv, fun u hu => h.dom.hp u (List.mem_filter.1 hu).1, h.dom.nd.filter _⟩

theorem update {s : Stk} {x : QStk} (h : QRel s x) {v : Nat} (hv : 1 ≤ v ∧ v ≤ s.numVars) :
    ∃ x', x.updateQ v = some x' ∧ QRel s x' := by
  obtain ⟨o, h', e, r, -⟩ := step_represents (x.act 0) h.rep (.update v) ⟨hv.1, by omega⟩
  simp only [VarHeap.step, Option.map_eq_some_iff] at e
  obtain ⟨h1, e1, e2⟩ := e
  cases e2
  exact ⟨{ x with q := h', act := fun k => x.act (k + 1) }, by simp [QStk.updateQ, QStk.op, e1], ⟨h.same, r, h.dom⟩⟩

/-- Changes of the other fields. -/
theorem other {s s' : Stk} {x : QStk} {t : Stk} (h : QRel s x) (e : { t with heap := s.heap } = s') (hn : s'.numVars = s.numVars)
    (ht : ∀ l ∈ s'.trail, 1 ≤ l.var ∧ l.var ≤ s.numVars) (hs : ∀ l ∈ s'.saved, 1 ≤ l.var ∧ l.var ≤ s.numVars) : QRel s' { x with s := t } := by
  have hh : s'.heap = s.heap := by rw [← e]
  refine ⟨?_, ?_, ⟨?_, ?_, ?_, ?_⟩⟩
  · rw [hh]; exact e
  · rw [hh, hn]; exact h.rep
  · rw [hn]; exact ht
  · rw [hn]; exact hs
  · rw [hn, hh]; exact h.dom.hp
  · rw [hh]; exact h.dom.nd

theorem nodup_inserts {s : Stk} (h : s.heap.Nodup) (vs : List Nat) : (s.insertHeaps vs).heap.Nodup := by
  unfold insertHeaps
  simp only []
  induction vs generalizing s with
  | nil => exact h
  | cons v vs ih => exact ih (s := s.insertHeap v) h.insert

theorem clearSaved {s : Stk} {x : QStk} (h : QRel s x) : ∃ x', x.clearSavedQ = some x' ∧ QRel s.clearSaved x' ∧ x'.s = { x.s with saved := [] } := by
  obtain ⟨hp, e⟩ := h.of
  have hsv : x.s.saved = s.saved := by rw [e]
  obtain ⟨x1, e1, h1, s1⟩ := h.inserts (vs := s.saved.reverse.map Lit.var) (fun v hv => by
    obtain ⟨l, hl, rfl⟩ := List.mem_map.1 hv
    exact h.dom.sv l (List.mem_reverse.1 hl))
  have h2 : QRel (s.insertHeaps (s.saved.map Lit.var)) x1 := by
    refine heap_congr h1 rfl (fun v => ?_) (nodup_inserts h.dom.nd _)
    rw [mem_insertHeaps, mem_insertHeaps]; simp
  refine ⟨{ x1 with s := { x1.s with saved := [] } }, by unfold QStk.clearSavedQ; rw [hsv, e1]; rfl, h2.other ?_ rfl ?_ ?_, by rw [s1]⟩
  · have := h2.same
    unfold Stk.clearSaved
    rw [← this]
  · exact h.dom.tr
  · intro l hl; simp [Stk.clearSaved] at hl

theorem saveTrail {s : Stk} {x : QStk} (h : QRel s x) (low : Nat → Bool) (lv : Nat) :
    ∃ x' hp, x.saveTrailQ low lv = some x' ∧ QRel (s.saveTrail low lv) x' ∧ x'.s = { s.saveTrail low lv with heap := hp } := by
  obtain ⟨hp, e⟩ := h.of
  obtain ⟨xs, q, act⟩ := x
  simp only [] at e
  subst e
  obtain ⟨x1, e1, h1, s1⟩ := h.clearSaved
  have hdrop : ∀ k, ∀ v ∈ (s.trail.drop k).map Lit.var, 1 ≤ v ∧ v ≤ s.numVars := by
    intro k v hv
    obtain ⟨l, hl, rfl⟩ := List.mem_map.1 hv
    exact h.dom.tr l (List.mem_of_mem_drop hl)
  by_cases hd : 2 ≤ s.dl
  · have eS : s.saveTrail low lv = { (s.clearSaved.insertHeaps ((((s.trail.drop (s.lim.getD lv 0)).take (s.lim.getD (s.dl - 2) 0 - s.lim.getD lv 0)).map
        Lit.var).filter (fun v => !low v))).insertHeaps ((s.trail.drop (s.lim.getD (s.dl - 2) 0)).map Lit.var) with
        saved := (s.trail.drop (s.lim.getD lv 0)).take (s.lim.getD (s.dl - 2) 0 - s.lim.getD lv 0)
        reasonSaved := fun v => if v ∈ ((s.trail.drop (s.lim.getD lv 0)).take (s.lim.getD (s.dl - 2) 0 - s.lim.getD lv 0)).map Lit.var then s.reason v
          else s.reasonSaved v } := if_pos hd
    have eQ : QStk.saveTrailQ low lv { s := { s with heap := hp }, q := q, act := act } =
      (QStk.clearSavedQ { s := { s with heap := hp }, q := q, act := act }).bind fun y =>
      (QStk.insertsQ ((((s.trail.drop (s.lim.getD lv 0)).take (s.lim.getD (s.dl - 2) 0 - s.lim.getD lv 0)).reverse.map Lit.var).filter (fun v => !low v)) y).bind
      fun y => (QStk.insertsQ ((s.trail.drop (s.lim.getD (s.dl - 2) 0)).map Lit.var) y).map fun y => { y with s := { y.s with
        saved := (s.trail.drop (s.lim.getD lv 0)).take (s.lim.getD (s.dl - 2) 0 - s.lim.getD lv 0)
        reasonSaved := fun v => if v ∈ ((s.trail.drop (s.lim.getD lv 0)).take (s.lim.getD (s.dl - 2) 0 - s.lim.getD lv 0)).map Lit.var then s.reason v
          else s.reasonSaved v } } := if_pos hd
    generalize s.lim.getD lv 0 = lim at *
    generalize s.lim.getD (s.dl - 2) 0 = lim2 at *
    generalize hseg : (s.trail.drop lim).take (lim2 - lim) = seg at *
    have hsub : ∀ l ∈ seg, l ∈ s.trail := fun l hl => by rw [← hseg] at hl; exact List.mem_of_mem_drop (List.mem_of_mem_take hl)
    obtain ⟨x2, e2, h2, s2⟩ := h1.inserts (vs := (seg.reverse.map Lit.var).filter (fun v => !low v)) (fun v hv => by
      obtain ⟨l, hl, rfl⟩ := List.mem_map.1 (List.mem_filter.1 hv).1
      exact h.dom.tr l (hsub l (List.mem_reverse.1 hl)))
    have h2' : QRel (s.clearSaved.insertHeaps ((seg.map Lit.var).filter (fun v => !low v))) x2 := by
      refine heap_congr h2 rfl (fun v => ?_) (nodup_inserts h1.dom.nd _)
      rw [mem_insertHeaps, mem_insertHeaps]; simp
    obtain ⟨x3, e3, h3, s3⟩ := h2'.inserts (vs := (s.trail.drop lim2).map Lit.var) (hdrop lim2)
    rw [eS, eQ, e1, Option.bind_some, e2, Option.bind_some, e3, Option.map_some]
    refine ⟨_, x3.s.heap, rfl, h3.other ?_ rfl ?_ ?_, ?_⟩
    · rw [← h3.same]
    · exact h.dom.tr
    · exact fun l hl => h.dom.tr l (hsub l hl)
    · rw [s3, s2, s1]; rfl
  · have eS : s.saveTrail low lv = s.clearSaved.insertHeaps ((s.trail.drop (s.lim.getD lv 0)).map Lit.var) := if_neg hd
    have eQ : QStk.saveTrailQ low lv { s := { s with heap := hp }, q := q, act := act } =
      (QStk.clearSavedQ { s := { s with heap := hp }, q := q, act := act }).bind fun y => QStk.insertsQ ((s.trail.drop (s.lim.getD lv 0)).map Lit.var) y := if_neg hd
    obtain ⟨x3, e3, h3, s3⟩ := h1.inserts (vs := (s.trail.drop (s.lim.getD lv 0)).map Lit.var) (hdrop _)
    rw [eS, eQ, e1, Option.bind_some, e3]
    exact ⟨_, x3.s.heap, rfl, h3, by rw [s3, s1]; rfl⟩

theorem cancelUntil {s : Stk} {x : QStk} (h : QRel s x) (low : Nat → Bool) (lv : Nat) : ∃ x', x.cancelUntilQ low lv = some x' ∧ QRel (s.cancelUntil low lv) x' := by
  obtain ⟨x1, hp1, e1, h1, s1⟩ := h.saveTrail low lv
  obtain ⟨hp, e⟩ := h.of
  obtain ⟨xs, q, act⟩ := x
  simp only [] at e
  subst e
  by_cases hd : s.dl ≤ lv
  · have eS : s.cancelUntil low lv = s := if_pos hd
    have eQ : QStk.cancelUntilQ low lv { s := { s with heap := hp }, q := q, act := act } = some { s := { s with heap := hp }, q := q, act := act } := if_pos hd
    rw [eS, eQ]
    exact ⟨_, rfl, h⟩
  · have eS : s.cancelUntil low lv = { (s.saveTrail low lv).unassignFrom (s.lim.getD lv 0) with qhead := min (s.lim.getD lv 0) s.qhead, lim := s.lim.take lv } :=
      if_neg hd
    have eQ : QStk.cancelUntilQ low lv { s := { s with heap := hp }, q := q, act := act } = (QStk.saveTrailQ low lv { s := { s with heap := hp }, q := q, act := act }).map
      fun y => { y with s := { y.s.unassignFrom (s.lim.getD lv 0) with qhead := min (s.lim.getD lv 0) s.qhead, lim := s.lim.take lv } } := if_neg hd
    rw [eS, eQ, e1, Option.map_some]
    refine ⟨_, rfl, h1.other ?_ rfl ?_ ?_⟩
    · rw [s1]; rfl
    · intro l hl
      exact h1.dom.tr l (List.mem_of_mem_take hl)
    · exact h1.dom.sv

theorem backtrackSandbox {s : Stk} {x : QStk} (h : QRel s x) : ∃ x', x.backtrackSandboxQ = some x' ∧ QRel s.backtrackSandbox x' := by
  obtain ⟨hp, e⟩ := h.of
  obtain ⟨xs, q, act⟩ := x
  simp only [] at e
  subst e
  by_cases hd : s.lim = []
  · have eS : s.backtrackSandbox = s := if_pos hd
    have eQ : QStk.backtrackSandboxQ { s := { s with heap := hp }, q := q, act := act } = some { s := { s with heap := hp }, q := q, act := act } := if_pos hd
    rw [eS, eQ]
    exact ⟨_, rfl, h⟩
  · have eS : s.backtrackSandbox = { (s.insertHeaps ((s.trail.drop (s.lim.getD 0 0)).map Lit.var)).unassignFrom (s.lim.getD 0 0) with
      qhead := (s.trail.take (s.lim.getD 0 0)).length, lim := [] } := if_neg hd
    have eQ : QStk.backtrackSandboxQ { s := { s with heap := hp }, q := q, act := act } =
      (QStk.insertsQ ((s.trail.drop (s.lim.getD 0 0)).map Lit.var) { s := { s with heap := hp }, q := q, act := act }).map fun y =>
      { y with s := { y.s.unassignFrom (s.lim.getD 0 0) with qhead := (s.trail.take (s.lim.getD 0 0)).length, lim := [] } } := if_neg hd
    obtain ⟨x1, e1, h1, s1⟩ := h.inserts (vs := (s.trail.drop (s.lim.getD 0 0)).map Lit.var) (fun v hv => by
      obtain ⟨l, hl, rfl⟩ := List.mem_map.1 hv
      exact h.dom.tr l (List.mem_of_mem_drop hl))
    rw [eS, eQ, e1, Option.map_some]
    refine ⟨_, rfl, h1.other ?_ rfl ?_ ?_⟩
    · rw [s1]; rfl
    · intro l hl
      exact h.dom.tr l (List.mem_of_mem_take hl)
    · exact h.dom.sv

theorem makeAsserted {s : Stk} {x : QStk} (h : QRel s x) {v : Nat} (hv : 1 ≤ v ∧ v ≤ s.numVars) : ∃ x', x.makeAssertedQ v = some x' ∧ QRel (s.makeAsserted v) x' := by
  obtain ⟨x1, e1, h1, s1⟩ := h.remove hv
  unfold QStk.makeAssertedQ
  rw [e1, Option.map_some]
  refine ⟨_, rfl, h1.other ?_ rfl h.dom.tr h.dom.sv⟩
  unfold Stk.makeAsserted
  have := h.same
  rw [s1, ← this]

theorem makeEliminated {s : Stk} {x : QStk} (h : QRel s x) {v : Nat} (hv : 1 ≤ v ∧ v ≤ s.numVars) :
    ∃ x', x.makeEliminatedQ v = some x' ∧ QRel (s.makeEliminated v) x' := by
  obtain ⟨x1, e1, h1, s1⟩ := h.remove hv
  have hel : x.s.elim = s.elim := by rw [← h.same]
  unfold QStk.makeEliminatedQ Stk.makeEliminated
  rw [hel]
  split
  · exact ⟨_, rfl, h⟩
  · rw [e1, Option.map_some]
    refine ⟨_, rfl, h1.other ?_ rfl ?_ h.dom.sv⟩
    · have := h.same
      rw [s1, ← this]
    · intro l hl
      exact h.dom.tr l (List.mem_filter.1 hl).1

theorem assignImpl {s : Stk} {x : QStk} (h : QRel s x) {l : Lit} (hl : 1 ≤ l.var ∧ l.var ≤ s.numVars) (r : Reason) (lv : Nat) :
    ∃ x', x.assignImplQ l r lv = some x' ∧ QRel (s.assignImpl l r lv) x' := by
  obtain ⟨hp, e⟩ := h.of
  obtain ⟨xs, q, act⟩ := x
  simp only [] at e
  subst e
  unfold QStk.assignImplQ Stk.assignImpl
  simp only []
  have h1 : QRel { s with assign := upd s.assign l.var (some l.pos), level := upd s.level l.var lv, reason := upd s.reason l.var r, trail := s.trail ++ [l] }
      { s := { s with assign := upd s.assign l.var (some l.pos), level := upd s.level l.var lv, reason := upd s.reason l.var r, trail := s.trail ++ [l], heap := hp }
        q := q, act := act } := by
    refine h.other rfl rfl (fun k hk => ?_) h.dom.sv
    rcases List.mem_append.1 hk with hk | hk
    · exact h.dom.tr k hk
    · rw [List.mem_singleton.1 hk]; exact hl
  split
  · exact h1.makeAsserted hl
  · exact ⟨_, rfl, h1⟩

theorem assignRoot {s : Stk} {x : QStk} (h : QRel s x) (low : Nat → Bool) {l : Lit} (hl : 1 ≤ l.var ∧ l.var ≤ s.numVars) :
    ∃ x', x.assignRootQ low l = some (x', (s.assignRoot low l).2) ∧ QRel (s.assignRoot low l).1 x' := by
  obtain ⟨x1, e1, h1⟩ := h.cancelUntil low 0
  unfold QStk.assignRootQ Stk.assignRoot
  rw [e1, Option.bind_some]
  have hnv : (s.cancelUntil low 0).numVars = s.numVars := by
    unfold Stk.cancelUntil; split
    · rfl
    · unfold Stk.saveTrail; simp only [unassignFrom]; split <;> rfl
  generalize s.cancelUntil low 0 = s1 at *
  obtain ⟨hp, e⟩ := h1.of
  obtain ⟨xs, q, act⟩ := x1
  simp only [] at e
  subst e
  simp only []
  cases ha : s1.assign l.var with
  | none =>
    simp only []
    have h2 : QRel { s1 with level := upd s1.level l.var 0, assign := upd s1.assign l.var (some l.pos), trail := s1.trail ++ [l] }
        { s := { s1 with level := upd s1.level l.var 0, assign := upd s1.assign l.var (some l.pos), trail := s1.trail ++ [l], heap := hp }, q := q, act := act } := by
      refine h1.other rfl rfl (fun k hk => ?_) h1.dom.sv
      rcases List.mem_append.1 hk with hk | hk
      · exact h1.dom.tr k hk
      · rw [List.mem_singleton.1 hk, hnv]; exact hl
    obtain ⟨x2, e2, h3⟩ := h2.makeAsserted (v := l.var) (by rw [← hnv] at hl; exact hl)
    rw [e2]
    exact ⟨x2, rfl, h3⟩
  | some b =>
    simp only []
    exact ⟨_, rfl, h1.other rfl rfl h1.dom.tr h1.dom.sv⟩

theorem rebuildOrder {s : Stk} {x : QStk} (h : QRel s x) : ∃ x', x.rebuildOrderQ = some x' ∧ QRel s.rebuildOrder x' := by
  obtain ⟨hp, e⟩ := h.of
  obtain ⟨xs, q, act⟩ := x
  simp only [] at e
  subst e
  have h0 : QRel { s with heap := [] } { s := { s with heap := hp }, q := q.clear, act := act } := by
    refine ⟨rfl, ?_, ⟨h.dom.tr, h.dom.sv, by simp, List.nodup_nil⟩⟩
    obtain ⟨o, h', e, r, -⟩ := step_represents (fun _ _ => false) h.rep .clear trivial
    simp only [VarHeap.step, Option.some.injEq, Prod.mk.injEq] at e
    obtain ⟨-, rfl⟩ := e
    exact r.congr fun v _ _ => by simp [specStep]
  unfold QStk.rebuildOrderQ Stk.rebuildOrder
  simp only []
  generalize hvs : ((List.range s.numVars).map (· + 1)).filter (fun v => (s.assign v).isNone && !s.elim v) = vs
  have hvr : ∀ v ∈ vs, 1 ≤ v ∧ v ≤ s.numVars := by
    intro v hv
    rw [← hvs] at hv
    obtain ⟨a, ha, rfl⟩ := List.mem_map.1 (List.mem_filter.1 hv).1
    have := List.mem_range.1 ha; omega
  obtain ⟨x1, e1, h1, s1⟩ := h0.inserts hvr
  refine ⟨x1, e1, heap_congr h1 rfl (fun v => ?_) ?_⟩
  · rw [mem_insertHeaps]; simp
  · rw [← hvs]
    exact (List.Nodup.map (fun a b h => by simpa using h) List.nodup_range).filter _

theorem newVar {s : Stk} {x : QStk} (h : QRel s x) : QRel s.newVar x.newVarQ := by
  obtain ⟨hp, e⟩ := h.of
  obtain ⟨xs, q, act⟩ := x
  simp only [] at e
  subst e
  obtain ⟨o, h', e, r, -⟩ := step_represents (fun _ _ => false) h.rep .expand trivial
  simp only [VarHeap.step, Option.some.injEq, Prod.mk.injEq] at e
  obtain ⟨-, rfl⟩ := e
  refine ⟨rfl, r.congr fun v _ _ => ⟨fun h => h.2, fun hv => ⟨?_, hv⟩⟩, ⟨?_, ?_, ?_, h.dom.nd⟩⟩
  · have := h.dom.hp v hv; omega
  · intro l hl; have := h.dom.tr l hl; exact ⟨this.1, Nat.le_succ_of_le this.2⟩
  · intro l hl; have := h.dom.sv l hl; exact ⟨this.1, Nat.le_succ_of_le this.2⟩
  · intro l hl; have := h.dom.hp l hl; exact ⟨this.1, Nat.le_succ_of_le this.2⟩

theorem new (n : Nat) (act : Nat → Nat → Nat → Bool) : QRel (Stk.new n) (QStk.new n act) := by
  refine ⟨rfl, (new_represents n n (Nat.le_refl _)).congr fun v h1 h2 => ?_, ⟨by simp [Stk.new], by simp [Stk.new], fun v hv => ?_, ?_⟩⟩
  · simp only [Stk.new, List.mem_map, List.mem_range]
    constructor
    · intro h; exact ⟨v - 1, by omega, by omega⟩
    · rintro ⟨a, ha, rfl⟩; exact Nat.lt_succ_iff.1 h2
  · simp only [Stk.new, List.mem_map, List.mem_range] at hv ⊢
    obtain ⟨a, ha, rfl⟩ := hv; omega
  · exact List.Nodup.map (fun a b h => by simpa using h) List.nodup_range

end QRel
end Splr
