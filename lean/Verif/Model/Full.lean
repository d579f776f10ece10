import Verif.Model.ElimLoop
import Verif.Model.Timed
/-!
# The solver with all its control loops

`solve` with the stage manager (Verif/Model/Timed.lean) and with the queues of the eliminator (Verif/Model/ElimLoop.lean). The functions
are those of Verif/Model/Solve.lean and Verif/Model/Timed.lean, with the suffix `Q`; only the calls of the eliminator differ.
-/
namespace Splr
open Stage

/-- src/solver/search.rs:93-121, as `pureLoop`: each variable with statistics is queued. -/
def pureLoopQ (p : Lims) (e : El) : Nat → Nat → DS → Queues → Res (DS × Queues)
  | 0, _, x, q => .ok (x, q)
  | n + 1, vi, x, q =>
    if x.2.assign vi ≠ none then pureLoopQ p e n (vi + 1) x q
    else if p.cnf + 1 < vi then .panic
    else if e.aborted vi then pureLoopQ p e n (vi + 1) x q
    else if e.neg vi = [] then
      (x.2.assignRootRes (x.1.log (.add [⟨vi, true⟩])) ⟨vi, true⟩).bind fun x1 =>
        (enqVar p e q vi false).bind (pureLoopQ p e n (vi + 1) x1)
    else if e.pos vi = [] then
      (x.2.assignRootRes (x.1.log (.add [⟨vi, false⟩])) ⟨vi, false⟩).bind fun x1 =>
        (enqVar p e q vi false).bind (pureLoopQ p e n (vi + 1) x1)
    else (enqVar p e q vi false).bind (pureLoopQ p e n (vi + 1) x)

/-- The choices made during preprocessing, as `Pre`; `ctl` in place of the commands of the eliminator. -/
structure PreQ where
  oom : Bool
  targets : List Nat
  oom1 : Bool
  ctl : Ctl
  oom2 : Bool

/-- With a list of commands for the eliminator. -/
def PreQ.pre (o : PreQ) (cmds : List ECmd) : Pre := { oom := o.oom, targets := o.targets, oom1 := o.oom1, cmds := cmds, oom2 := o.oom2 }

/-- src/solver/search.rs:47-158, as `preprocess`. -/
def preprocessQ (cfg : Cfg) (o : PreQ) (x : Sol) : Res Sol :=
  if cfg.enable then
    if o.oom then .err
    else
      (vivify o.targets (x.db, x.s)).bind fun x1 =>
        (((Stk.propagateSandbox x1.1 x1.2).toRes.bind fun z => if o.oom1 then .err else .ok z).orOom o.oom1).bind fun x2 =>
          (prepareQ (o.ctl.lims cfg.evo x.cnf) o.ctl.flags x2).bind fun y =>
            (pureLoopQ (o.ctl.lims cfg.evo x.cnf) y.1.2 y.1.1.2.numVars 1 y.1.1 y.2).bind fun x3 =>
              ((simplifyQ (o.ctl.lims cfg.evo x.cnf) o.ctl o.oom2 ((x3.1, y.1.2), x3.2)).orOom o.oom2).bind fun z =>
                .ok { x with db := z.1.1, s := z.1.2.rebuildOrder, store := x.store ++ z.2.lits }
  else preprocess cfg (o.pre []) x

/-- The choices of one iteration, as `Tick`; `ctl` in place of the commands of the eliminator. -/
structure TickQ where
  t : Tick
  ctl : Ctl

/-- With a list of commands for the eliminator. -/
def TickQ.tick (t : TickQ) (cmds : List ECmd) : Tick := { t.t with st := { t.t.st with cmds := cmds } }

/-- src/solver/search.rs:341-353, as `segmentElim`. -/
def segmentElimQ (cfg : Cfg) (c : Ctl) (o : StageOrc) (x : Sol) : Res Sol :=
  if cfg.enable then
    (prepareQ (c.lims cfg.evo x.cnf) c.flags (x.db, x.s)).bind fun y =>
      (simplifyQ (c.lims cfg.evo x.cnf) c o.oom y).bind fun z =>
        .ok { x with db := z.1.1, s := z.1.2, store := x.store ++ z.2.lits }
  else segmentElim cfg o x

/-- src/solver/search.rs:251-378, as `stageStep`. -/
def stageStepQ (cfg : Cfg) (c : Ctl) (o : StageOrc) (low : Nat → Bool) (x : Sol) : Res Sol :=
  if o.timeout then .err
  else
    (clearAsserted (x.db, x.s.restart low)).bind fun x1 =>
      (x1.1.reduceRes x1.2 o.victims).bind fun x2 =>
        (if o.cycle then
          (vivify o.targets x2).bind fun x3 =>
            let y : Sol := { x with db := x3.1, s := x3.2 }
            if o.segment then segmentElimQ cfg c o y else .ok y
        else .ok { x with db := x2.1, s := x2.2 }).bind fun y => .ok { y with s := y.s.clearSaved }

/-- src/solver/search.rs:248-385, as `timedConflict`. -/
def timedConflictQ (cfg : Cfg) (t : TickQ) (x : Sol) (n : Nat) (m : StageManager) : Res Timed :=
  let n1 := if t.t.grows then n + 1 else n
  if m.ended n1 then
    match m.prepare n1 with
    | none => .panic
    | some (flag, m1) =>
      (stageStepQ cfg t.ctl { t.t.st with cycle := flag.isSome, segment := flag.getD false } t.t.o.low2 x).bind fun y => .ok (y, n1, m1)
  else .ok (if t.t.o.restart then { x with s := x.s.restart t.t.o.low2 } else x, n1, m)

/-- src/solver/search.rs:236-395, as `timedStep`. -/
def timedStepQ (cfg : Cfg) (t : TickQ) (z : Timed) : Res Timed :=
  match decideStep t.t.o z.1.s with
  | none => .panic
  | some s =>
    match Stk.propagate t.t.o.q z.1.db s with
    | .ok db s1 => .ok ({ z.1 with db := db, s := s1 }, z.2)
    | .panic => .panic
    | .fuel => .fuel
    | .conflict db s1 l r =>
      if s1.dl = 0 then .unsat db s1
      else
        match handleConflict db s1 t.t.o.low t.t.o.rr t.t.o.drift l r with
        | .panic => .panic
        | .unsat db2 s2 => .unsat db2 s2
        | .ok db2 s2 => timedConflictQ cfg t { z.1 with db := db2, s := s2 } z.2.1 z.2.2

/-- src/solver/search.rs:236-395, as `timedLoop`. -/
def timedLoopQ (cfg : Cfg) : List TickQ → Timed → Res Timed
  | [], z => .ok z
  | t :: ts, z => if z.1.s.running then (timedStepQ cfg t z).bind (timedLoopQ cfg ts) else .ok z

/-- src/solver/search.rs:47-219 `solve`, as `timedSolve`: what remains open are the answers of heuristics, clocks and memory limits. -/
def solveQ (cfg : Cfg) (p : PreQ) (m : StageManager) (ts : List TickQ) (low : Nat → Bool) (x : Sol) : Ans :=
  match (preprocessQ cfg p x).bind fun y => (timedLoopQ cfg ts (y, 0, m.initialize 32)).bind fun z => .ok z.1 with
  | .ok y => if y.s.running then .more y else finish low y
  | .unsat db _ => .unsat db
  | .err => .err
  | .panic => .panic
  | .fuel => .fuel

end Splr
