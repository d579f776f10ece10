import Verif.Model.Stk
import Mathlib.Data.List.Sort
/-!
# Building a solver: src/solver/build.rs

`Sol` is the state of a `Solver` between calls of its API.
-/
namespace Splr

/-- src/solver/mod.rs:74-79 `struct Solver`: the clause database, the assignment stack, the elimination store
(`asg.eliminated`) and `state.cnf.num_of_variables`. The heuristic parts of `State` are left out. -/
structure Sol where
  db : Cdb
  s : Stk
  store : List Lit
  cnf : Nat

/-- src/solver/build.rs:113-127 `Solver::instantiate` for `nv` variables. -/
def Sol.new (nv : Nat) : Sol := { db := Cdb.new, s := Stk.new nv, store := [], cnf := nv }

/-- src/types/mod.rs `enum SolverError`: the errors of the functions modelled here. -/
inductive ApiErr where
  | invalidLiteral
  | emptyClause
  | rootConflict
  | inconsistent
deriving DecidableEq, Repr

/-- At the root level `cancel_until(root)` returns at once, whatever the rewards of the variables are. -/
def noLow : Nat → Bool := fun _ => false

/-- `lits.sort()`: by ordinal (src/types/lit.rs:11-19). -/
def sortLits (c : Cls) : Cls := c.insertionSort (fun a b => a.ord ≤ b.ord)

/-- src/solver/build.rs:259-270 the loop of `add_unchecked_clause` over the sorted literals; `none` = `RefClause::Dead`. -/
def normLits (val : Lit → Option Bool) : Cls → Option Lit → Option Cls
  | [], _ => some []
  | l :: ls, last =>
    if val l = some true ∨ last = some l.neg then none
    else if val l ≠ some false ∧ last ≠ some l then (normLits val ls (some l)).map (l :: ·)
    else normLits val ls last

/-- src/solver/build.rs:252-283 `add_unchecked_clause`; `none` = panic. -/
def Sol.addUnchecked (x : Sol) (c : Cls) : Option (Sol × RefClause) :=
  if c = [] then some (x, .emptyClause)
  else
    match normLits x.s.val (sortLits c) none with
    | none => some (x, .dead)
    | some [] => some (x, .emptyClause)
    | some [l] =>
      match x.s.assignRoot noLow l with
      | (s1, true) => some ({ x with db := x.db.log (.add [l]), s := s1 }, .unit l)
      | (s1, false) => some ({ x with db := x.db.log (.add [l]), s := s1 }, .emptyClause)
    | some v =>
      match x.db.newClause x.s.level v false with
      | none => none
      | some (db1, r) => some ({ x with db := db1 }, r)

/-- src/solver/build.rs:177, 195-199, 332-336: the literal `i` is 0 or its variable does not exist. -/
def Sol.badLit (x : Sol) (i : Int) : Bool := decide (i = 0) || decide (x.s.numVars < i.natAbs)

/-- src/solver/build.rs:191-213 `add_clause`: the state afterwards, and the error if there is one; `none` = panic. -/
def Sol.addClause (x : Sol) (v : List Int) : Option (Sol × Option ApiErr) :=
  if v.any x.badLit then some (x, some .invalidLiteral)
  else if v = [] then some (x, some .emptyClause)
  else
    match x.addUnchecked (v.map Lit.ofInt) with
    | none => none
    | some (y, .emptyClause) => some (y, some .emptyClause)
    | some (y, _) => some (y, none)

/-- src/solver/build.rs:176-190 `add_assignment`. -/
def Sol.addAssignment (x : Sol) (i : Int) : Sol × Option ApiErr :=
  if x.badLit i then (x, some .invalidLiteral)
  else
    let l := Lit.ofInt i
    let db := x.db.log (.add [l])
    match x.s.val l with
    | none =>
      match x.s.assignRoot noLow l with
      | (s1, true) => ({ x with db := db, s := s1 }, none)
      | (s1, false) => ({ x with db := db, s := s1 }, some .rootConflict)
    | some true => ({ x with db := db }, none)
    | some false => ({ x with db := db }, some .rootConflict)

/-- src/solver/build.rs:214-222 `add_var`; `state.cnf` is not changed (src/state.rs:231-233 changes `state.target`). -/
def Sol.addVar (x : Sol) : Sol × Nat := ({ x with s := x.s.newVar }, x.s.numVars + 1)

/-- src/solver/build.rs:325-353 the loop of `inject_from_vec`; `none` = panic. -/
def Sol.inject : Sol → List (List Int) → Option (Sol × Option ApiErr)
  | x, [] => some (x, none)
  | x, c :: cs =>
    if c.any x.badLit then some (x, some .invalidLiteral)
    else
      match x.addUnchecked (c.map Lit.ofInt) with
      | none => none
      | some (y, .emptyClause) => some (y, some .emptyClause)
      | some (y, _) => y.inject cs

/-- src/types/cnf.rs:72-86: the number of variables of a vector of clauses (no literal is `i32::MIN`). -/
def vecVars (v : List (List Int)) : Nat := ((v.map fun c => (c.map Int.natAbs).foldr max 0)).foldr max 0

/-- src/solver/build.rs:142-155 `Solver::try_from((config, vec))`: an error, or the solver. A `RootLevelConflict`, turned into
`Ok(Certificate::UNSAT)` there, is never returned by `inject_from_vec`. -/
def Sol.tryFrom (v : List (List Int)) : Option (Sol × Option ApiErr) := (Sol.new (vecVars v)).inject v

/-- src/solver/validate.rs:39-47 `inject_assignment`: the literals are assigned at the root level until one fails. -/
def Sol.injectAssignment (x : Sol) (v : List Int) : Sol × Option ApiErr :=
  if v = [] then (x, some .inconsistent) else go x v
where
  /-- the loop -/
  go : Sol → List Int → Sol × Option ApiErr
    | x, [] => (x, none)
    | x, i :: is =>
      match x.s.assignRoot noLow (Lit.ofInt i) with
      | (s1, true) => go { x with s := s1 } is
      | (s1, false) => ({ x with s := s1 }, some .rootConflict)

/-- src/solver/validate.rs:64-68 `validate`. -/
def Sol.validate (x : Sol) : Option Cls := (x.db.validate x.s.assign true).map fun cid => (x.db.clause cid).lits

end Splr
