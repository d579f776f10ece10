import Verif.Model.Solve
import Verif.Model.Dimacs
/-!
# Entry points: `Certificate::try_from`, loading a file, the programs `splr` and `dmcr`
-/
namespace Splr

/-- The result of a call for an answer: `Result<Certificate, SolverError>`, or no answer (a panic, or the search goes on). -/
inductive Verdict where
  | sat (vals : List Int)
  | unsat
  | error (e : Option ApiErr)
  | none
deriving DecidableEq

/-- The verdict of `solve`. -/
def Ans.verdict : Ans → Verdict
  | .sat vals _ => .sat vals
  | .unsat _ => .unsat
  | .err => .error .none
  | _ => .none

/-- src/solver/mod.rs:114-127 `Certificate::try_from(vec)`; the default configuration has `enable_eliminator = true`. -/
def certify (p : Pre) (os : List Orc) (low : Nat → Bool) (v : List (List Int)) : Verdict :=
  match Sol.tryFrom v with
  | .none => .none
  | some (_, some .emptyClause) => .unsat
  | some (_, some .rootConflict) => .unsat
  | some (_, some e) => .error (some e)
  | some (x, .none) => (solve {} p os low x).verdict

/-- src/solver/build.rs:290-320 the loop of `inject` over the lines of a file; `none` = panic. -/
def Sol.loadLines : Sol → List (List Char) → Option (Sol × Option ApiErr)
  | x, [] => some (x, .none)
  | x, l :: ls =>
    match Dimacs.lineAct l with
    | .skip => x.loadLines ls
    | .empty => some (x, some .emptyClause)
    | .clause c =>
      match x.addUnchecked (c.map Lit.ofInt) with
      | .none => .none
      | some (y, .emptyClause) => some (y, some .emptyClause)
      | some (y, _) => y.loadLines ls

/-- The result of `Solver::build`. `failed`: another error or a panic. -/
inductive Loaded where
  | ok (x : Sol)
  | emptyClause
  | failed

/-- src/solver/build.rs:233-236 `Solver::build` on the text of a file. -/
def Sol.load (text : List Char) : Loaded :=
  match Dimacs.openCnf (Text.readLines text) with
  | .ok nv _ rest =>
    match (Sol.new nv).loadLines rest with
    | some (x, .none) => .ok x
    | some (_, some .emptyClause) => .emptyClause
    | _ => .failed
  | _ => .failed

/-- src/bin/splr.rs:174-190, 206-216: the answer file if there is no model: the report, the status, `0`. -/
def statusText (comments : List (List Char)) (status : List Char) : List Char :=
  (comments.flatMap (· ++ ['\n'])) ++ status ++ "\n0\n".toList

/-- src/bin/splr.rs:87-112 the process from loading the file on: its exit code and the answer file it writes (src/bin/splr.rs:115-222;
`report` are the comment lines of the file); `none`: a panic, or it goes on. -/
def splrMain (cfg : Cfg) (p : Pre) (os : List Orc) (low : Nat → Bool) (report : List (List Char)) (text : List Char) :
    Option (Nat × Option (List Char)) :=
  match Sol.load text with
  | .emptyClause => some (20, .none)
  | .failed => .none
  | .ok x =>
    match (solve cfg p os low x).verdict with
    | .sat v => some (10, some (Dimacs.answerText report v))
    | .unsat => some (20, some (statusText report "s UNSATISFIABLE".toList))
    | .error _ => some (0, some (statusText report "s UNKNOWN".toList))
    | .none => .none

/-- What `dmcr` reports. -/
inductive Dmcr where
  /-- panic: the formula or the answer cannot be read -/
  | panic
  /-- the answer file says UNSATISFIABLE or is illegal -/
  | notAnAnswer
  /-- "seems an unsat problem but no proof" -/
  | inconsistent
  /-- "An invalid assignment set" -/
  | invalid
  /-- "A valid assignment set" -/
  | valid
deriving DecidableEq

/-- src/bin/dmcr.rs:132-206 `main` on a formula and an answer file. -/
def dmcr (cnf ans : List Char) : Dmcr :=
  match Sol.load cnf with
  | .ok x =>
    match Dimacs.readAnswer (Text.readLines ans) with
    | .panic => .panic
    | .none_ => .notAnAnswer
    | .some_ v =>
      match x.injectAssignment v with
      | (_, some _) => .inconsistent
      | (y, .none) => if y.validate.isSome then .invalid else .valid
  | _ => .panic

end Splr
