import Verif.Model.QueueWhole
import Verif.Model.Ample
/-!
# Limits reached by the eliminator, for the most detailed model

The questions of Verif/Model/Ample.lean about a run of Verif/Model/QueueWhole.lean: did the eliminator reach one of its limits? Nothing here is part of the program.
-/
namespace Splr
namespace QStk
open ResQ Stage

/-- If there is a result, it satisfies `f`. -/
def ResQ.every {α : Type} (r : ResQ α) (f : α → Bool) : Bool :=
  match r with
  | .ok a => f a
  | _ => true

/-- During src/processor/simplify.rs:511-537 (`elimLoopA`): in no round is the budget used up while literals of the trail are taken
(src/processor/simplify.rs:414-434), and when the clock ends the rounds, all literals of the trail have been taken. As `ampleLoop`. -/
def ampleLoopA (p : Lims) (skip : Nat → DS × El → Bool) (budget : DS → Nat) (late : Nat → Bool) : Nat → Nat → EQ → Bool
  | 0, _, _ => true
  | n + 1, k, w =>
    let w0 : EQ := (w.1, { w.2 with budget := budget (view w).1.1 })
    ResQ.every (mainLoopA p skip (mainFuel (view w0)) w0) fun w1 =>
      (decide (w1.2.budget ≠ 0) || decide (w1.2.bwd = w.2.bwd)) &&
        ResQ.every (propagateA w1) fun w2 =>
          if w2.1.1.2.s.trail.length = w.1.1.2.s.trail.length ∧ w2.2.clauses = [] ∧ w2.2.vars.h.len = 0 then true
          else if late k then decide (w2.1.1.2.s.trail.length ≤ w2.2.bwd)
          else ampleLoopA p skip budget late n (k + 1) w2

/-- And: at the start no clause is longer than `subsume_literal_limit` (src/processor/simplify.rs:488); at the end the occurrence lists of no variable are
given up for their length (src/processor/simplify.rs:352-358). As `ampleElim`. -/
def ampleElimA (p : Lims) (c : Ctl) (w : EQ) : Bool :=
  w.1.1.1.ids.all (fun i => decide ((w.1.1.1.clause i).lits.length ≤ p.sub)) && ampleLoopA p c.skip c.budget c.late (w.1.1.2.s.numVars + 2) 0 w &&
    ResQ.every (eliminateA p c.skip c.budget c.late w) fun u => (List.range (p.cnf + 1)).all fun v => !u.1.2.aborted v

/-- As `amplePreW` (src/solver/search.rs:47-158). -/
def amplePreA (c : CfgW) (o : PreW) (n : Counts) (y : SolQ) : Bool :=
  ResQ.every (vivifyA c n o.used (y.db, y.x)) fun y1 =>
    ResQ.every (PResQ.toRes (propagateSandboxQ y1.1 y1.2)) fun y2 =>
      ResQ.every (prepareA (o.ctl.lims c.cfg.evo y.cnf) o.ctl.flags y2) fun w =>
        ResQ.every (pureLoopA (o.ctl.lims c.cfg.evo y.cnf) w.1.2 w.1.1.2.s.numVars 1 w.1.1 w.2) fun y3 =>
          ampleElimA (o.ctl.lims c.cfg.evo y.cnf) o.ctl ((y3.1, w.1.2), y3.2)

/-- As `ampleSeg` (src/solver/search.rs:341-353). -/
def ampleSegA (cfg : Cfg) (c : Ctl) (y : SolQ) : Bool :=
  ResQ.every (prepareA (c.lims cfg.evo y.cnf) c.flags (y.db, y.x)) fun w => ampleElimA (c.lims cfg.evo y.cnf) c w

variable {K : Type} [LinearOrder K]

/-- As `ampleStageW` (src/solver/search.rs:251-378). -/
def ampleStageA (c : CfgW) (t : TickW K) (m : StageManager) (flag : Option Bool) (n : Counts) (y : SolQ) : Bool :=
  if flag = some true then
    ResQ.every (lift (y.x.cancelUntilQ t.o.low2 0) fun x0 => clearAssertedQ (y.db, x0)) fun y1 =>
      ResQ.every (reduceA t.keys (reductionW c m flag.isSome) y1) fun y2 =>
        ResQ.every (vivifyA c { n with restarts := n.restarts + 1 } t.used y2) fun y3 => ampleSegA c.cfg t.ctl { y with db := y3.1, x := y3.2 }
  else true

/-- As `ampleTickW` (src/solver/search.rs:236-395). -/
def ampleTickA (c : CfgW) (t : TickW K) (z : WholeA) : Bool :=
  match z.1.x.decideStepQ t.o.phase with
  | .none => true
  | some x1 =>
    match propagateQ t.o.q z.1.db x1 with
    | .conflict db1 x2 l r =>
      if x2.s.dl = 0 then true
      else
        match handleConflictA db1 x2 t.o.low t.o.rr t.o.drift l r with
        | .ok db2 x3 rank =>
          let n1 := if 1 < rank then z.2.1 + 1 else z.2.1
          if z.2.2.1.ended n1 then
            match z.2.2.1.prepare n1 with
            | some (flag, m1) => ampleStageA c t m1 flag z.2.2.2 { z.1 with db := db2, x := x3 }
            | .none => true
          else true
        | _ => true
    | _ => true

/-- As `ampleTicksW`. -/
def ampleTicksA (c : CfgW) : List (TickW K) → WholeA → Bool
  | [], _ => true
  | t :: ts, z => if z.1.x.s.running then ampleTickA c t z && ResQ.every (stepA c t z) (ampleTicksA c ts) else true

/-- As `ampleRunW` (src/solver/search.rs:47-219). -/
def ampleRunA (c : CfgW) (p : PreW) (m : StageManager) (n : Counts) (ts : List (TickW K)) (y : SolQ) : Bool :=
  amplePreA c p n y && ResQ.every (preprocessA c p n y) fun z => ampleTicksA c ts (z, 0, m.initialize 32, { n with vivs := n.vivs + 1 })

end QStk
end Splr
