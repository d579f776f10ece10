import Verif.Model.Build
/-!
# Root level: `clear_asserted_literals` and `propagate_at_root_level` of src/assign/propagate.rs
-/
namespace Splr

/-- The result of a function returning `MaybeInconsistent`. `unsat`: `Err(RootLevelConflict)` or `Err(EmptyClause)` in the given
state; `err`: another error (out of memory, timeout); `fuel`: the model's bound on the number of iterations was hit. -/
inductive Res (α : Type) where
  | ok (a : α)
  | unsat (db : Cdb) (s : Stk)
  | err
  | panic
  | fuel

namespace Res

/-- The operator `?`. -/
def bind {α β : Type} (r : Res α) (f : α → Res β) : Res β :=
  match r with
  | ok a => f a
  | unsat db s => unsat db s
  | err => err
  | panic => panic
  | fuel => fuel

end Res

/-- A state of the solver inside `solve`. -/
abbrev DS := Cdb × Stk

/-- `.map_err(SolverError::RootLevelConflict)` -/
def PRes.toRes : PRes → Res DS
  | .ok db s => .ok (db, s)
  | .conflict db s _ _ => .unsat db s
  | .panic => .panic
  | .fuel => .fuel

/-- `Result` of `assign_at_root_level` -/
def Stk.assignRootRes (s : Stk) (db : Cdb) (l : Lit) : Res DS :=
  match s.assignRoot noLow l with
  | (s1, true) => .ok (db, s1)
  | (s1, false) => .unsat db s1

/-- `remove_clause` -/
def Cdb.removeRes (db : Cdb) (s : Stk) (cid : Nat) : Res DS :=
  match db.removeClause cid with
  | none => .panic
  | some db1 => .ok (db1, s)

/-- src/assign/propagate.rs:781-801 the body of the `for` loop of `propagate_at_root_level`. -/
def simpOne (x : DS) (cid : Nat) : Res DS :=
  if (x.1.clause cid).dead then .ok x
  else
    match x.1.transformBySimplification x.2.assign x.2.elim cid with
    | none => .panic
    | some (db1, .emptyClause) => .unsat db1 x.2
    | some (db1, .unit l) => (x.2.assignRootRes (db1.log (.add [l])) l).bind fun y => y.1.removeRes y.2 cid
    | some (db1, _) => .ok (db1, x.2)

/-- src/assign/propagate.rs:780-801 the `for` loop. -/
def simpPass : List Nat → DS → Res DS
  | [], x => .ok x
  | cid :: cids, x => (simpOne x cid).bind (simpPass cids)

/-- The clause ids `1..cdb.len()`. -/
def Cdb.ids (db : Cdb) : List Nat := (List.range db.len).drop 1

/-- src/assign/propagate.rs:776-805 `propagate_at_root_level`, with `num_propagated = np`. -/
def rootLoop : Nat → Nat → DS → Res DS
  | 0, _, _ => .fuel
  | n + 1, np, x =>
    if np < x.2.trail.length then (simpPass x.1.ids x).bind (rootLoop n x.2.trail.length) else .ok x

/-- `propagate_sandbox` if something remains to be propagated -/
def propRemains (x : DS) : Res DS := if x.2.remains then (Stk.propagateSandbox x.1 x.2).toRes else .ok x

/-- src/assign/propagate.rs:746-761 the loop of `clear_asserted_literals`. -/
def clearLoop : Nat → DS → Res DS
  | 0, _ => .fuel
  | n + 1, x =>
    (propRemains x).bind fun x1 =>
      (rootLoop (x1.2.numVars + 2) 0 x1).bind fun x2 =>
        if x2.2.remains then (Stk.propagateSandbox x2.1 x2.2).toRes.bind (clearLoop n) else .ok x2

/-- src/assign/propagate.rs:762-766: the trail is wiped. -/
def Stk.archive (s : Stk) : Stk := { s with numAsserted := s.numAsserted + s.trail.length, trail := [], qhead := 0 }

/-- src/assign/propagate.rs:746-767 `clear_asserted_literals`. -/
def clearAsserted (x : DS) : Res DS := (clearLoop (x.2.numVars + 2) x).bind fun y => .ok (y.1, y.2.archive)

end Splr
