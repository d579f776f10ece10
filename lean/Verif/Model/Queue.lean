import Verif.Model.Heap
import Verif.Model.Solve
/-!
# The trail with the array queue

In Verif/Model/Stk.lean the queue of the decision variables is the list of its members, and which member is taken is arbitrary. Here the
functions that use the queue are modelled with the array heap of the code (Verif/Model/Heap.lean). The field `heap` of `Stk` is not used.
The activities change at any time: each operation on the heap has its own comparison. The functions have the suffix `Q`; the result
`none` is a panic.
-/
namespace Splr
open Heap

/-- src/assign/stack.rs:23-100: the assignment stack and its field `var_order`; `act k u v`: at the `k`-th operation on the queue from now
on, the activity of `u` is below the one of `v` (src/assign/heap.rs:97-158). -/
structure QStk where
  s : Stk
  q : VarHeap
  act : Nat → Nat → Nat → Bool

namespace QStk

/-- An operation on the queue. -/
def op (f : (Nat → Nat → Bool) → VarHeap → Option VarHeap) (x : QStk) : Option QStk :=
  (f (x.act 0) x.q).map fun h => { x with q := h, act := fun k => x.act (k + 1) }

/-- src/assign/heap.rs:77-80 `insert_heap`. -/
def insertQ (v : Nat) (x : QStk) : Option QStk := x.op fun lt h => h.insertHeap lt v

/-- src/assign/heap.rs:159-163 `remove_from_heap`. -/
def removeQ (v : Nat) (x : QStk) : Option QStk := x.op fun lt h => h.removeHeap lt v

/-- src/assign/select.rs:133-135 `update_order`. -/
def updateQ (v : Nat) (x : QStk) : Option QStk := x.op fun lt h => h.updateHeap lt v

/-- `insert_heap` of each of the given variables. -/
def insertsQ : List Nat → QStk → Option QStk
  | [], x => some x
  | v :: vs, x => (x.insertQ v).bind (insertsQ vs)

/-- src/assign/stack.rs:173-201 `instantiate`. -/
def new (nv : Nat) (act : Nat → Nat → Nat → Bool) : QStk := { s := Stk.new nv, q := VarHeap.new nv nv, act := act }

/-- src/assign/trail_saving.rs:106-112 `clear_saved_trail`. (`saved` is `trail_saved` reversed.) -/
def clearSavedQ (x : QStk) : Option QStk := (insertsQ (x.s.saved.reverse.map Lit.var) x).map fun y => { y with s := { y.s with saved := [] } }

/-- src/assign/trail_saving.rs:17-51 `save_trail`. The variables of the part that is saved are visited from the newest to the oldest. -/
def saveTrailQ (low : Nat → Bool) (lv : Nat) (x : QStk) : Option QStk :=
  let lim := x.s.lim.getD lv 0
  if 2 ≤ x.s.dl then
    let lim2 := x.s.lim.getD (x.s.dl - 2) 0
    let seg := (x.s.trail.drop lim).take (lim2 - lim)
    let rs := fun v => if v ∈ seg.map Lit.var then x.s.reason v else x.s.reasonSaved v
    x.clearSavedQ.bind fun y => (insertsQ ((seg.reverse.map Lit.var).filter (fun v => !low v)) y).bind fun y =>
      (insertsQ ((x.s.trail.drop lim2).map Lit.var) y).map fun y => { y with s := { y.s with saved := seg, reasonSaved := rs } }
  else x.clearSavedQ.bind fun y => insertsQ ((x.s.trail.drop lim).map Lit.var) y

/-- src/assign/propagate.rs:197-301 `cancel_until`. -/
def cancelUntilQ (low : Nat → Bool) (lv : Nat) (x : QStk) : Option QStk :=
  if x.s.dl ≤ lv then some x
  else
    (x.saveTrailQ low lv).map fun y =>
      let k := x.s.lim.getD lv 0
      { y with s := { y.s.unassignFrom k with qhead := min k x.s.qhead, lim := x.s.lim.take lv } }

/-- src/assign/propagate.rs:302-318 `backtrack_sandbox`. -/
def backtrackSandboxQ (x : QStk) : Option QStk :=
  if x.s.lim = [] then some x
  else
    let k := x.s.lim.getD 0 0
    (insertsQ ((x.s.trail.drop k).map Lit.var) x).map fun y =>
      { y with s := { y.s.unassignFrom k with qhead := (x.s.trail.take k).length, lim := [] } }

/-- src/assign/stack.rs:543-556 `make_var_asserted`. -/
def makeAssertedQ (v : Nat) (x : QStk) : Option QStk :=
  (x.removeQ v).map fun y => { y with s := { y.s with reason := upd y.s.reason v (.decision 0) } }

/-- src/assign/stack.rs:557-585 `make_var_eliminated`. -/
def makeEliminatedQ (v : Nat) (x : QStk) : Option QStk :=
  if x.s.elim v then some x
  else (x.removeQ v).map fun y =>
    { y with s := { y.s with elim := upd y.s.elim v true, trail := y.s.trail.filter (·.var ≠ v), numElim := y.s.numElim + 1 } }

/-- src/assign/propagate.rs:137-171 `assign_by_implication` at level `lv`. -/
def assignImplQ (l : Lit) (r : Reason) (lv : Nat) (x : QStk) : Option QStk :=
  let s1 := { x.s with assign := upd x.s.assign l.var (some l.pos)
                       level := upd x.s.level l.var lv
                       reason := upd x.s.reason l.var r
                       trail := x.s.trail ++ [l] }
  if lv = 0 then makeAssertedQ l.var { x with s := s1 } else some { x with s := s1 }

/-- src/assign/propagate.rs:109-136 `assign_at_root_level`; the flag is `false` for `Err(RootLevelConflict)`. -/
def assignRootQ (low : Nat → Bool) (l : Lit) (x : QStk) : Option (QStk × Bool) :=
  (x.cancelUntilQ low 0).bind fun x1 =>
    let s2 := { x1.s with level := upd x1.s.level l.var 0 }
    match s2.assign l.var with
    | .none => (makeAssertedQ l.var { x1 with s := { s2 with assign := upd s2.assign l.var (some l.pos), trail := s2.trail ++ [l] } }).map fun y => (y, true)
    | some b => some ({ x1 with s := s2 }, b == l.pos)

/-- src/assign/select.rs:136-143 `rebuild_order`. -/
def rebuildOrderQ (x : QStk) : Option QStk :=
  insertsQ (((List.range x.s.numVars).map (· + 1)).filter fun v => (x.s.assign v).isNone && !x.s.elim v) { x with q := x.q.clear }

/-- src/assign/stack.rs:216-220 the event `NewVar` with `expand_heap`. -/
def newVarQ (x : QStk) : QStk := { x with s := x.s.newVar, q := x.q.expand }

/-- src/assign/heap.rs:81-91 `get_heap_root`. -/
def heapRootQ (x : QStk) : Option (Nat × QStk) :=
  (if x.q.len = 0 then x.clearSavedQ else some x).bind fun y =>
    (y.q.getRoot (y.act 0)).map fun r => (r.1, { y with q := r.2, act := fun k => y.act (k + 1) })

/-- src/assign/select.rs:148-155 `select_var`; the first argument bounds the iterations of the model. -/
def selectVarQ : Nat → QStk → Option (Nat × QStk)
  | 0, _ => .none
  | n + 1, x =>
    match x.heapRootQ with
    | .none => .none
    | some (v, y) => if y.s.assign v = .none ∧ y.s.elim v = false then some (v, y) else selectVarQ n y

/-- The loop of `select_var` takes every variable at most twice from the queue. -/
def selectFuelQ (x : QStk) : Nat := 2 * x.s.numVars + 1

/-- src/solver/search.rs:237-240, src/assign/select.rs:130-155 the decision, if nothing remains to be propagated; `phase`: the saved phases. -/
def decideStepQ (phase : Nat → Bool) (x : QStk) : Option QStk :=
  if x.s.remains then some x
  else (selectVarQ x.selectFuelQ x).map fun r => { r.2 with s := r.2.s.assignDecision ⟨r.1, phase r.1⟩ }

end QStk
end Splr
