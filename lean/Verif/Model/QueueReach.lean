import Verif.Model.QueueSolve
import Verif.Model.Reach
import Verif.Model.Main
/-! # Solvers with the array queue that can occur -/
namespace Splr

/-- `BuiltQ F x`: the solver `x` was constructed and given the clauses `F` through the API (src/solver/build.rs:113-222, 285-324), see `Built`;
the activities are arbitrary at each operation on the queue. -/
inductive BuiltQ : Form → SolQ → Prop
  | new (nv : Nat) (act : Nat → Nat → Nat → Bool) : BuiltQ [] (SolQ.new nv act)
  | addVar {F : Form} {x : SolQ} (h : BuiltQ F x) : BuiltQ F x.addVar
  | addClause {F : Form} {x y : SolQ} {v : List Int} (h : BuiltQ F x) (e : x.addClause v = some (y, none)) : BuiltQ (F ++ [clsOf v]) y
  | rejected {F : Form} {x y : SolQ} {v : List Int} {err : ApiErr} (h : BuiltQ F x) (e : x.addClause v = some (y, some err)) : BuiltQ F y
  | addAssignment {F : Form} {x y : SolQ} {i : Int} (h : BuiltQ F x) (e : x.addAssignment i = some (y, none)) : BuiltQ (F ++ [clsOf [i]]) y
  | rejectedAssignment {F : Form} {x y : SolQ} {i : Int} (h : BuiltQ F x) (e : x.addAssignment i = some (y, some .invalidLiteral)) : BuiltQ F y
  | line {F : Form} {x y : SolQ} {c : List Int} {r : RefClause} (h : BuiltQ F x) (hc : ∀ i ∈ c, i ≠ 0 ∧ i.natAbs ≤ x.x.s.numVars)
      (e : x.addUnchecked (clsOf c) = some (y, r)) (hr : r ≠ .emptyClause) : BuiltQ (F ++ [clsOf c]) y

/-- `HeadQ cfg F x`: `x` is the state at the beginning of an iteration of the main loop (src/solver/search.rs:236), see `Head`. -/
inductive HeadQ (cfg : Cfg) (F : Form) : SolQ → Prop
  | start {x y : SolQ} {p : Pre} (h : BuiltQ F x) (e : QStk.preprocessQ cfg p x = .ok y) : HeadQ cfg F y
  | step {x y : SolQ} {o : Orc} (h : HeadQ cfg F x) (hr : x.x.s.running = true) (e : QStk.searchStepQ cfg o x = .ok y) : HeadQ cfg F y

/-- The verdict of `solve` (src/solver/search.rs:47-219), see `Ans.verdict`. -/
def QStk.AnsQ.verdict : QStk.AnsQ → Verdict
  | .sat vals _ => .sat vals
  | .unsat _ => .unsat
  | .err => .error .none
  | _ => .none

end Splr
