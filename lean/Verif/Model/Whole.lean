import Verif.Model.Full
import Verif.Model.Ample
import Verif.Model.Reduce
import Verif.Model.VivTargets
/-!
# The solver with the choices of the code

`solveQ` (Verif/Model/Full.lean) is given the clauses to be deleted, the clauses to be vivified, and whether a conflict counts for the
stages. Here these are computed as in the code: `reduceBy` (Verif/Model/Reduce.lean), `vivifyAll` (Verif/Model/VivTargets.lean), and the value
returned by `handle_conflict`. What remains open: floating-point statistics (activities, averages), clocks and memory limits.
The functions have the suffix `W`.
-/
namespace Splr
open Stage

/-- src/solver/conflict.rs:18-22, 206: the result of `handle_conflict` with the returned number. -/
inductive HResW where
  | ok (db : Cdb) (s : Stk) (rank : Nat)
  | unsat (db : Cdb) (s : Stk)
  | panic

/-- Without the number. -/
def HResW.res : HResW → HRes
  | .ok db s _ => .ok db s
  | .unsat db s => .unsat db s
  | .panic => .panic

/-- src/solver/conflict.rs:134-206, as `learnClause`. -/
def learnClauseW (db : Cdb) (s : Stk) (low : Nat → Bool) (drift : Bool) (v : Cls) (lv : Nat) : HResW :=
  let dr := drift && decide (0 < lv) && decide (2 < v.length)
  let s1 := if dr then (s.cancelUntil low (lv - 1)).clearSaved else s.cancelUntil low lv
  match v with
  | l0 :: l1 :: _ =>
    match db.newClause s1.level v true with
    | none => .panic
    | some (db1, .clause cid) =>
      let rank := if v.length = 2 then 1 else (db1.clause cid).rank
      if dr then .ok db1 s1 rank
      else .ok db1 (s1.assignImpl l0 (if v.length = 2 then .binary l1.neg else .impl cid) lv) rank
    | some (db1, .registered _) => if dr then .ok db1 s1 1 else .ok db1 (s1.assignImpl l0 (.binary l1.neg) lv) 1
    | some (_, _) => .panic
  | _ => .panic

/-- src/solver/conflict.rs:77-99, as `learnUnit`. -/
def learnUnitW (db : Cdb) (s : Stk) (low : Nat → Bool) (l0 : Lit) : HResW :=
  if s.val l0 = some true ∧ 0 < s.level l0.var then .panic
  else if s.val l0 = some false ∧ s.level l0.var = 0 then .unsat db s
  else
    match s.assignRoot low l0 with
    | (s1, true) => .ok (db.log (.add [l0])) s1 0
    | (_, false) => .panic

/-- src/solver/conflict.rs:22-206, as `handleConflict`. -/
def handleConflictW (db : Cdb) (s : Stk) (low : Nat → Bool) (rr : Option Nat) (drift : Bool) (l : Lit) (r : Reason) : HResW :=
  if rootConflict db s r then .unsat db s
  else
    match conflictAnalyze db s l r with
    | none => .panic
    | some ([], _, _) => .unsat db s
    | some ([l0], _, _) => learnUnitW (db.rerankOne s.level rr) s low l0
    | some (v, lv, _) => learnClauseW (db.rerankOne s.level rr) s low drift v lv

/-- src/config.rs:57-64, 116-120: the configuration; `power1 n`, `power2 n` stand for `n.powf(1.0 - cls_rdc_rm1) as usize` and
`n.powf(1.0 - cls_rdc_rm2) as usize`. `vivLimit`: src/cdb/vivify.rs:10 `VIVIFY_LIMIT`. -/
structure CfgW where
  cfg : Cfg := {}
  rdcLbd : Nat := 5
  power1 : Nat → Nat
  power2 : Nat → Nat
  vivLimit : Nat := 20000

/-- src/state.rs `Stat::Restart`, `Stat::Vivification`. -/
structure Counts where
  restarts : Nat := 0
  vivs : Nat := 0

/-- src/solver/stage.rs:124-131 `num_reducible`. -/
def StageManager.numReducible (m : StageManager) (power : Nat → Nat) : Nat := m.span - power m.span

/-- src/solver/search.rs:282-292, 358-367: the kind of reduction; `cycle`: a new cycle begins. -/
def reductionW {K : Type} (c : CfgW) (m : StageManager) (cycle : Bool) : ReductionType K :=
  if cycle then .lbdOnAll c.rdcLbd c.power2 else .rasOnAdd (StageManager.numReducible m c.power1)

/-- What is open in an iteration of the main loop: `o` (its field `stage` is not used), whether the time is over, whether the memory is,
the limits and clocks of the eliminator, the activities of the variables, the uses of the clauses. -/
structure TickW (K : Type) where
  o : Orc
  timeout : Bool
  oom : Bool
  ctl : Ctl
  keys : Keys K
  used : Nat → Nat

/-- What is open in preprocessing. -/
structure PreW where
  oom : Bool
  oom1 : Bool
  ctl : Ctl
  oom2 : Bool
  used : Nat → Nat

/-- The solver, `num_learnt`, the stage manager, the counters. -/
abbrev Whole := Sol × Nat × StageManager × Counts

/-- src/cdb/vivify.rs:17-185 `vivify`. -/
def vivifyW (c : CfgW) (n : Counts) (used : Nat → Nat) (x : DS) : Res DS := vivifyAll c.vivLimit (n.restarts == 0) (n.vivs % 32) used x

variable {K : Type} [LinearOrder K]

/-- src/cdb/db.rs:1031-1114 `reduce`. -/
def reduceW (k : Keys K) (t : ReductionType K) (x : DS) : Res DS :=
  match x.1.reduceBy x.2.level k t with
  | none => .panic
  | some db => .ok (db, x.2)

/-- src/solver/search.rs:341-353: `segmentElimQ` with the open values of `TickW`. -/
def segmentElimW (c : CfgW) (ctl : Ctl) (oom : Bool) (x : Sol) : Res Sol :=
  segmentElimQ c.cfg ctl { timeout := false, cycle := true, segment := true, victims := [], targets := [], cmds := [], oom := oom } x

/-- src/solver/search.rs:251-378 the end of a stage; `m` is the stage manager after `prepare_new_stage`, `flag` what it returned. -/
def stageStepW (c : CfgW) (t : TickW K) (m : StageManager) (flag : Option Bool) (n : Counts) (x : Sol) : Res (Sol × Counts) :=
  if t.timeout then .err
  else
    let n := { n with restarts := n.restarts + 1 }
    (clearAsserted (x.db, x.s.restart t.o.low2)).bind fun x1 =>
      (reduceW t.keys (reductionW c m flag.isSome) x1).bind fun x2 =>
        (if flag.isSome then
          (vivifyW c n t.used x2).bind fun x3 =>
            let y : Sol := { x with db := x3.1, s := x3.2 }
            (if flag = some true then segmentElimW c t.ctl t.oom y else .ok y).bind fun y => .ok (y, { n with vivs := n.vivs + 1 })
        else .ok ({ x with db := x2.1, s := x2.2 }, n)).bind fun y => .ok ({ y.1 with s := y.1.s.clearSaved }, y.2)

/-- src/solver/search.rs:248-385 what follows a handled conflict; `rank` is what `handle_conflict` returned. -/
def conflictW (c : CfgW) (t : TickW K) (rank : Nat) (x : Sol) (n : Nat) (m : StageManager) (k : Counts) : Res Whole :=
  let n1 := if 1 < rank then n + 1 else n
  if m.ended n1 then
    match m.prepare n1 with
    | none => .panic
    | some (flag, m1) => (stageStepW c t m1 flag k x).bind fun y => .ok (y.1, n1, m1, y.2)
  else if t.o.restart then .ok ({ x with s := x.s.restart t.o.low2 }, n1, m, { k with restarts := k.restarts + 1 })
  else .ok (x, n1, m, k)

/-- src/solver/search.rs:236-395 one iteration of the main loop. -/
def stepW (c : CfgW) (t : TickW K) (z : Whole) : Res Whole :=
  match decideStep t.o z.1.s with
  | none => .panic
  | some s =>
    match Stk.propagate t.o.q z.1.db s with
    | .ok db s1 => .ok ({ z.1 with db := db, s := s1 }, z.2)
    | .panic => .panic
    | .fuel => .fuel
    | .conflict db s1 l r =>
      if s1.dl = 0 then .unsat db s1
      else
        match handleConflictW db s1 t.o.low t.o.rr t.o.drift l r with
        | .panic => .panic
        | .unsat db2 s2 => .unsat db2 s2
        | .ok db2 s2 rank => conflictW c t rank { z.1 with db := db2, s := s2 } z.2.1 z.2.2.1 z.2.2.2

/-- src/solver/search.rs:236-395 the main loop. -/
def loopW (c : CfgW) : List (TickW K) → Whole → Res Whole
  | [], z => .ok z
  | t :: ts, z => if z.1.s.running then (stepW c t z).bind (loopW c ts) else .ok z

/-- src/solver/search.rs:47-158 preprocessing. -/
def preprocessW (c : CfgW) (o : PreW) (n : Counts) (x : Sol) : Res Sol :=
  if o.oom then .err
  else
    (vivifyW c n o.used (x.db, x.s)).bind fun x1 =>
      (((Stk.propagateSandbox x1.1 x1.2).toRes.bind fun z => if o.oom1 then .err else .ok z).orOom o.oom1).bind fun x2 =>
        if c.cfg.enable then
          (prepareQ (o.ctl.lims c.cfg.evo x.cnf) o.ctl.flags x2).bind fun y =>
            (pureLoopQ (o.ctl.lims c.cfg.evo x.cnf) y.1.2 y.1.1.2.numVars 1 y.1.1 y.2).bind fun x3 =>
              ((simplifyQ (o.ctl.lims c.cfg.evo x.cnf) o.ctl o.oom2 ((x3.1, y.1.2), x3.2)).orOom o.oom2).bind fun z =>
                .ok { x with db := z.1.1, s := z.1.2.rebuildOrder, store := x.store ++ z.2.lits }
        else
          (prepare false c.cfg.evo x.cnf x2).bind fun y =>
            (pureLoop x.cnf y.2 y.1.2.numVars 1 y.1).bind fun x3 =>
              ((simplify false c.cfg.evo [] o.oom2 (x3, y.2)).orOom o.oom2).bind fun z =>
                .ok { x with db := z.1.1, s := z.1.2.rebuildOrder, store := x.store ++ z.2.lits }

/-- src/solver/search.rs:47-219 `solve` of a solver with the stage manager `m` and the counters `n`. -/
def solveW (c : CfgW) (p : PreW) (m : StageManager) (n : Counts) (ts : List (TickW K)) (low : Nat → Bool) (x : Sol) : Ans :=
  match (preprocessW c p n x).bind fun y => (loopW c ts (y, 0, m.initialize 32, { n with vivs := n.vivs + 1 })).bind fun z => .ok z.1 with
  | .ok y => if y.s.running then .more y else finish low y
  | .unsat db _ => .unsat db
  | .err => .err
  | .panic => .panic
  | .fuel => .fuel

/-! ## The eliminator reaches none of its limits, as in Verif/Model/Ample.lean -/

/-- As `amplePre` (src/solver/search.rs:47-158). -/
def amplePreW (c : CfgW) (o : PreW) (n : Counts) (x : Sol) : Bool :=
  (vivifyW c n o.used (x.db, x.s)).every fun x1 =>
    (Stk.propagateSandbox x1.1 x1.2).toRes.every fun x2 =>
      (prepareQ (o.ctl.lims c.cfg.evo x.cnf) o.ctl.flags x2).every fun y =>
        (pureLoopQ (o.ctl.lims c.cfg.evo x.cnf) y.1.2 y.1.1.2.numVars 1 y.1.1 y.2).every fun x3 =>
          ampleElim (o.ctl.lims c.cfg.evo x.cnf) o.ctl ((x3.1, y.1.2), x3.2)

/-- As `ampleStage` (src/solver/search.rs:251-378). -/
def ampleStageW (c : CfgW) (t : TickW K) (m : StageManager) (flag : Option Bool) (n : Counts) (x : Sol) : Bool :=
  if flag = some true then
    (clearAsserted (x.db, x.s.restart t.o.low2)).every fun x1 =>
      (reduceW t.keys (reductionW c m flag.isSome) x1).every fun x2 =>
        (vivifyW c { n with restarts := n.restarts + 1 } t.used x2).every fun x3 => ampleSeg c.cfg t.ctl { x with db := x3.1, s := x3.2 }
  else true

/-- As `ampleTick` (src/solver/search.rs:236-395). -/
def ampleTickW (c : CfgW) (t : TickW K) (z : Whole) : Bool :=
  match decideStep t.o z.1.s with
  | none => true
  | some s =>
    match Stk.propagate t.o.q z.1.db s with
    | .conflict db s1 l r =>
      if s1.dl = 0 then true
      else
        match handleConflictW db s1 t.o.low t.o.rr t.o.drift l r with
        | .ok db2 s2 rank =>
          let n1 := if 1 < rank then z.2.1 + 1 else z.2.1
          if z.2.2.1.ended n1 then
            match z.2.2.1.prepare n1 with
            | some (flag, m1) => ampleStageW c t m1 flag z.2.2.2 { z.1 with db := db2, s := s2 }
            | none => true
          else true
        | _ => true
    | _ => true

/-- As `ampleTicks`. -/
def ampleTicksW (c : CfgW) : List (TickW K) → Whole → Bool
  | [], _ => true
  | t :: ts, z => if z.1.s.running then ampleTickW c t z && (stepW c t z).every (ampleTicksW c ts) else true

/-- As `ampleRun` (src/solver/search.rs:47-219). -/
def ampleRunW (c : CfgW) (p : PreW) (m : StageManager) (n : Counts) (ts : List (TickW K)) (x : Sol) : Bool :=
  amplePreW c p n x && (preprocessW c p n x).every fun y => ampleTicksW c ts (y, 0, m.initialize 32, { n with vivs := n.vivs + 1 })

end Splr
