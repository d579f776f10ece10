import Verif.Model.Solve
import Verif.Model.Stage
/-!
# The main loop with its stage manager

In `search` (Verif/Model/Solve.lean) the ends of stages are arbitrary. Here they are those of the stage manager of the code
(src/solver/stage.rs, src/solver/search.rs:229-272); all other choices remain arguments.
-/
namespace Splr
open Stage

/-- The choices of one iteration: `o` (its field `stage` is not used), `grows`: `handle_conflict` returns more than 1
(src/solver/search.rs:248), `st`: the choices of the end of a stage (its fields `cycle` and `segment` are not used). -/
structure Tick where
  o : Orc
  grows : Bool
  st : StageOrc

/-- The solver, `num_learnt` and the stage manager. -/
abbrev Timed := Sol × Nat × StageManager

/-- src/solver/search.rs:248-385 what follows a handled conflict. -/
def timedConflict (cfg : Cfg) (t : Tick) (x : Sol) (n : Nat) (m : StageManager) : Res Timed :=
  let n1 := if t.grows then n + 1 else n
  if m.ended n1 then
    match m.prepare n1 with
    | none => .panic
    | some (flag, m1) =>
      (stageStep cfg { t.st with cycle := flag.isSome, segment := flag.getD false } t.o.low2 x).bind fun y => .ok (y, n1, m1)
  else .ok (if t.o.restart then { x with s := x.s.restart t.o.low2 } else x, n1, m)

/-- src/solver/search.rs:236-395 one iteration of the main loop. -/
def timedStep (cfg : Cfg) (t : Tick) (z : Timed) : Res Timed :=
  match decideStep t.o z.1.s with
  | none => .panic
  | some s =>
    match Stk.propagate t.o.q z.1.db s with
    | .ok db s1 => .ok ({ z.1 with db := db, s := s1 }, z.2)
    | .panic => .panic
    | .fuel => .fuel
    | .conflict db s1 l r =>
      if s1.dl = 0 then .unsat db s1
      else
        match handleConflict db s1 t.o.low t.o.rr t.o.drift l r with
        | .panic => .panic
        | .unsat db2 s2 => .unsat db2 s2
        | .ok db2 s2 => timedConflict cfg t { z.1 with db := db2, s := s2 } z.2.1 z.2.2

/-- src/solver/search.rs:236-395 the main loop, up to as many iterations as there are choices given. -/
def timedLoop (cfg : Cfg) : List Tick → Timed → Res Timed
  | [], z => .ok z
  | t :: ts, z => if z.1.s.running then (timedStep cfg t z).bind (timedLoop cfg ts) else .ok z

/-- src/solver/search.rs:223-422 `search`: `num_learnt` is 0 and the stage manager is initialised with the unit 32. -/
def timedSearch (cfg : Cfg) (m : StageManager) (ts : List Tick) (x : Sol) : Res Sol :=
  (timedLoop cfg ts (x, 0, m.initialize 32)).bind fun z => .ok z.1

/-- src/solver/search.rs:47-219 `solve` of a solver with the stage manager `m`. -/
def timedSolve (cfg : Cfg) (p : Pre) (m : StageManager) (ts : List Tick) (low : Nat → Bool) (x : Sol) : Ans :=
  match (preprocess cfg p x).bind (timedSearch cfg m ts) with
  | .ok y => if y.s.running then .more y else finish low y
  | .unsat db _ => .unsat db
  | .err => .err
  | .panic => .panic
  | .fuel => .fuel

end Splr
