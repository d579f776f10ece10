import Verif.Model.Full
/-!
# Limits reached by the eliminator

The loops of `Verif/Model/ElimLoop.lean`, `Verif/Model/Full.lean` once more, as questions about a run: did the eliminator reach one of its limits?
Nothing here is part of the program.
-/
namespace Splr
open Stage

/-- During src/processor/simplify.rs:511-537 (`elimLoop`): in no round is the budget used up while literals of the trail are taken
(src/processor/simplify.rs:414-434), and when the clock ends the rounds, all literals of the trail have been taken. -/
def ampleLoop (p : Lims) (skip : Nat → DS × El → Bool) (budget : DS → Nat) (late : Nat → Bool) : Nat → Nat → ES → Bool
  | 0, _, _ => true
  | n + 1, k, z =>
    let z0 : ES := (z.1, { z.2 with budget := budget z.1.1 })
    match mainLoop p skip (mainFuel z0) z0 with
    | .ok z1 =>
      (decide (z1.2.budget ≠ 0) || decide (z1.2.bwd = z.2.bwd)) &&
        match propagateQ p z1 with
        | .ok z2 =>
          if z2.1.1.2.trail.length = z.1.1.2.trail.length ∧ z2.2.clauses = [] ∧ z2.2.vars.h.len = 0 then true
          else if late k then decide (z2.1.1.2.trail.length ≤ z2.2.bwd)
          else ampleLoop p skip budget late n (k + 1) z2
        | _ => true
    | _ => true

/-- And: at the start no clause is longer than `subsume_literal_limit` (src/processor/simplify.rs:488); at the end the occurrence lists of no variable are
given up for their length (src/processor/simplify.rs:352-358). -/
def ampleElim (p : Lims) (c : Ctl) (z : ES) : Bool :=
  z.1.1.1.ids.all (fun i => decide ((z.1.1.1.clause i).lits.length ≤ p.sub)) && ampleLoop p c.skip c.budget c.late (z.1.1.2.numVars + 2) 0 z &&
    match eliminateQ p c.skip c.budget c.late z with
    | .ok u => (List.range (p.cnf + 1)).all fun v => !u.1.2.aborted v
    | _ => true

/-- If there is a result, it satisfies `f`. -/
def Res.every {α : Type} (r : Res α) (f : α → Bool) : Bool :=
  match r with
  | .ok a => f a
  | _ => true

/-- The run of the eliminator in preprocessing (src/solver/search.rs:47-158) reaches no limit. -/
def amplePre (cfg : Cfg) (o : PreQ) (x : Sol) : Bool :=
  (vivify o.targets (x.db, x.s)).every fun x1 =>
    (Stk.propagateSandbox x1.1 x1.2).toRes.every fun x2 =>
      (prepareQ (o.ctl.lims cfg.evo x.cnf) o.ctl.flags x2).every fun y =>
        (pureLoopQ (o.ctl.lims cfg.evo x.cnf) y.1.2 y.1.1.2.numVars 1 y.1.1 y.2).every fun x3 =>
          ampleElim (o.ctl.lims cfg.evo x.cnf) o.ctl ((x3.1, y.1.2), x3.2)

/-- The run at the start of a segment (src/solver/search.rs:341-353) reaches no limit. -/
def ampleSeg (cfg : Cfg) (c : Ctl) (x : Sol) : Bool :=
  (prepareQ (c.lims cfg.evo x.cnf) c.flags (x.db, x.s)).every fun y => ampleElim (c.lims cfg.evo x.cnf) c y

/-- The end of a stage (src/solver/search.rs:251-378): if a segment begins, the run of the eliminator reaches no limit. -/
def ampleStage (cfg : Cfg) (c : Ctl) (o : StageOrc) (low : Nat → Bool) (x : Sol) : Bool :=
  if o.cycle && o.segment then
    (clearAsserted (x.db, x.s.restart low)).every fun x1 =>
      (x1.1.reduceRes x1.2 o.victims).every fun x2 => (vivify o.targets x2).every fun x3 => ampleSeg cfg c { x with db := x3.1, s := x3.2 }
  else true

/-- The same for one iteration of the main loop (src/solver/search.rs:236-395). -/
def ampleTick (cfg : Cfg) (t : TickQ) (z : Timed) : Bool :=
  match decideStep t.t.o z.1.s with
  | none => true
  | some s =>
    match Stk.propagate t.t.o.q z.1.db s with
    | .conflict db s1 l r =>
      if s1.dl = 0 then true
      else
        match handleConflict db s1 t.t.o.low t.t.o.rr t.t.o.drift l r with
        | .ok db2 s2 =>
          let n1 := if t.t.grows then z.2.1 + 1 else z.2.1
          if z.2.2.ended n1 then
            match z.2.2.prepare n1 with
            | some (flag, _) => ampleStage cfg t.ctl { t.t.st with cycle := flag.isSome, segment := flag.getD false } t.t.o.low2 { z.1 with db := db2, s := s2 }
            | none => true
          else true
        | _ => true
    | _ => true

/-- All iterations of the main loop. -/
def ampleTicks (cfg : Cfg) : List TickQ → Timed → Bool
  | [], _ => true
  | t :: ts, z => if z.1.s.running then ampleTick cfg t z && (timedStepQ cfg t z).every (ampleTicks cfg ts) else true

/-- In the whole call of `solve` (src/solver/search.rs:47-219) the eliminator reaches none of its limits. -/
def ampleRun (cfg : Cfg) (p : PreQ) (m : StageManager) (ts : List TickQ) (x : Sol) : Bool :=
  amplePre cfg p x && (preprocessQ cfg p x).every fun y => ampleTicks cfg ts (y, 0, m.initialize 32)

end Splr
