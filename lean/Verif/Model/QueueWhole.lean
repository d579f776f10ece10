import Verif.Model.QueueElimLoop
/-!
# The solver with the choices of the code, the array queue and range checks

The functions of Verif/Model/Whole.lean on the trail with the array queue, with checks of the indices into the arrays of the variables and of the clauses, and with
the loops of the eliminator of Verif/Model/QueueElimLoop.lean. This is the most detailed model of `solve`: open are only floating-point statistics
(activities, averages), clocks and memory limits. The functions have the suffix `A`; see the functions of the same name with the suffix `W`.
-/
namespace Splr
namespace QStk
open ResQ Stage

/-! ## vivification -/

/-- src/cdb/vivify.rs:42-145, as `vivOneQ`; also how it ended, see `Splr.vivTry`. The index of the target is checked first. -/
def vivTryA (y : DQ) (cid : Nat) : ResQ (DQ × Tried) :=
  lift y.2.backtrackSandboxQ fun x0 =>
    (propRemainsQ (y.1, x0)).bind fun y =>
      chk (okC y.1 cid)
        (if (y.1.clause cid).dead then .ok (y, .dead)
        else
          match vivDecideQ (y.1.clause cid).lits [] y.1 y.2 with
          | .done db x => .ok ((db, x), .rest)
          | .panic => .panic
          | .fuel => .fuel
          | .conflict db x decisions l r =>
            (vivConflictQ (y.1.clause cid).learnt (y.1.clause cid).lits cid db x decisions l r).bind fun z => .ok (z, .hit))

/-- src/cdb/vivify.rs:41-149, see `Splr.vivLoopLim`. -/
def vivLoopLimA (limit : Nat) : List Nat → Nat → DQ → ResQ DQ
  | [], _, y => .ok y
  | cid :: cids, n, y =>
    (vivTryA y cid).bind fun z =>
      match z.2 with
      | .dead => vivLoopLimA limit cids n z.1
      | .hit => vivLoopLimA limit cids (n + 1) z.1
      | .rest => if limit < n + 1 then .ok z.1 else vivLoopLimA limit cids (n + 1) z.1

/-- src/cdb/vivify.rs:17-185 `vivify`, see `Splr.vivifyAll`. -/
def vivifyAllA (limit : Nat) (first : Bool) (n : Nat) (used : Nat → Nat) (y : DQ) : ResQ DQ :=
  (propRemainsQ y).bind fun y1 =>
    let ts := (if first then (firstTargets y1.1 y1.2.s.numVars limit).map Prod.snd else (laterTargets y1.1 used n limit).map Prod.snd).reverse
    if ts = [] then .ok y1
    else (vivLoopLimA limit ts 0 y1).bind fun y2 =>
      lift y2.2.backtrackSandboxQ fun x => (propRemainsQ (y2.1, x)).bind clearAssertedQ

/-- src/cdb/vivify.rs:17-185 `vivify`, see `Splr.vivifyW`. -/
def vivifyA (c : CfgW) (n : Counts) (used : Nat → Nat) (y : DQ) : ResQ DQ := vivifyAllA c.vivLimit (n.restarts == 0) (n.vivs % 32) used y

/-! ## conflicts -/

/-- src/solver/conflict.rs:18-22, 206: the result of `handle_conflict` with the returned number, see `HResW`. -/
inductive HResA where
  | ok (db : Cdb) (x : QStk) (rank : Nat)
  | unsat (db : Cdb) (x : QStk)
  | panic

/-- src/solver/conflict.rs:100-206, as `learnClauseQ`; see `Splr.learnClauseW`. -/
def learnClauseA (db : Cdb) (x : QStk) (low : Nat → Bool) (drift : Bool) (v : Cls) (lv : Nat) : HResA :=
  let dr := drift && decide (0 < lv) && decide (2 < v.length)
  if rewardC db x v then
    match (if dr then (x.cancelUntilQ low (lv - 1)).bind clearSavedQ else x.cancelUntilQ low lv) with
    | .none => .panic
    | some x1 =>
      if v.all fun l => x1.okV l.var && decide (x1.s.level l.var ≤ x1.s.numVars) then
        match v with
        | l0 :: l1 :: _ =>
          match db.newClause x1.s.level v true with
          | .none => .panic
          | some (db1, .clause cid) =>
            let rank := if v.length = 2 then 1 else (db1.clause cid).rank
            if dr then .ok db1 x1 rank
            else
              match x1.assignImplQ l0 (if v.length = 2 then .binary l1.neg else .impl cid) lv with
              | .none => .panic
              | some x2 => .ok db1 x2 rank
          | some (db1, .registered _) =>
            if dr then .ok db1 x1 1
            else
              match x1.assignImplQ l0 (.binary l1.neg) lv with
              | .none => .panic
              | some x2 => .ok db1 x2 1
          | some (_, _) => .panic
        | _ => .panic
      else .panic
  else .panic

/-- src/solver/conflict.rs:77-99, as `learnUnitQ`; see `Splr.learnUnitW`. -/
def learnUnitA (db : Cdb) (x : QStk) (low : Nat → Bool) (l0 : Lit) : HResA :=
  if x.okV l0.var then
    if x.s.val l0 = some true ∧ 0 < x.s.level l0.var then .panic
    else if x.s.val l0 = some false ∧ x.s.level l0.var = 0 then .unsat db x
    else
      match x.assignRootQ low l0 with
      | some (x1, true) => .ok (db.log (.add [l0])) x1 0
      | _ => .panic
  else .panic

/-- src/solver/conflict.rs:22-206 `handle_conflict`, as `handleConflictQ`; see `Splr.handleConflictW`. -/
def handleConflictA (db : Cdb) (x : QStk) (low : Nat → Bool) (rr : Option Nat) (drift : Bool) (l : Lit) (r : Reason) : HResA :=
  if rootC db x r then
    if rootConflict db x.s r then .unsat db x
    else
      match conflictAnalyzeC db x l r with
      | .none => .panic
      | some ([], _, _) => .unsat db x
      | some ([l0], _, _) => learnUnitA (db.rerankOne x.s.level rr) x low l0
      | some (v, lv, _) => learnClauseA (db.rerankOne x.s.level rr) x low drift v lv
  else .panic

/-! ## `solve` -/

/-- The solver, `num_learnt`, the stage manager, the counters, see `Whole`. -/
abbrev WholeA := SolQ × Nat × StageManager × Counts

/-- src/solver/search.rs:341-353, see `Splr.segmentElimW`. -/
def segmentElimA (c : CfgW) (ctl : Ctl) (oom : Bool) (y : SolQ) : ResQ SolQ :=
  if c.cfg.enable then
    (prepareA (ctl.lims c.cfg.evo y.cnf) ctl.flags (y.db, y.x)).bind fun z =>
      (simplifyA (ctl.lims c.cfg.evo y.cnf) ctl oom z).bind fun w =>
        .ok { y with db := w.1.1, x := w.1.2, store := y.store ++ w.2.lits }
  else segmentElimQ c.cfg { timeout := false, cycle := true, segment := true, victims := [], targets := [], cmds := [], oom := oom } y

variable {K : Type} [LinearOrder K]

/-- src/cdb/db.rs:1031-1114 `reduce`, see `Splr.reduceW`; the ranks of all clauses are computed in a table indexed by levels. -/
def reduceA (k : Keys K) (t : ReductionType K) (y : DQ) : ResQ DQ :=
  chk (y.1.ids.all fun i => y.2.okRank (y.1.clause i).lits) (lift (y.1.reduceBy y.2.s.level k t) fun db => .ok (db, y.2))

/-- src/solver/search.rs:251-378, see `Splr.stageStepW`. -/
def stageStepA (c : CfgW) (t : TickW K) (m : StageManager) (flag : Option Bool) (n : Counts) (y : SolQ) : ResQ (SolQ × Counts) :=
  if t.timeout then .err
  else
    let n := { n with restarts := n.restarts + 1 }
    lift (y.x.cancelUntilQ t.o.low2 0) fun x0 =>
      (clearAssertedQ (y.db, x0)).bind fun y1 =>
        (reduceA t.keys (reductionW c m flag.isSome) y1).bind fun y2 =>
          (if flag.isSome then
            (vivifyA c n t.used y2).bind fun y3 =>
              let z : SolQ := { y with db := y3.1, x := y3.2 }
              (if flag = some true then segmentElimA c t.ctl t.oom z else .ok z).bind fun z => .ok (z, { n with vivs := n.vivs + 1 })
          else .ok ({ y with db := y2.1, x := y2.2 }, n)).bind fun z => lift z.1.x.clearSavedQ fun x => .ok ({ z.1 with x := x }, z.2)

/-- src/solver/search.rs:248-385, see `Splr.conflictW`. -/
def conflictA (c : CfgW) (t : TickW K) (rank : Nat) (y : SolQ) (n : Nat) (m : StageManager) (k : Counts) : ResQ WholeA :=
  let n1 := if 1 < rank then n + 1 else n
  if m.ended n1 then
    match m.prepare n1 with
    | .none => .panic
    | some (flag, m1) => (stageStepA c t m1 flag k y).bind fun z => .ok (z.1, n1, m1, z.2)
  else if t.o.restart then lift (y.x.cancelUntilQ t.o.low2 0) fun x => .ok ({ y with x := x }, n1, m, { k with restarts := k.restarts + 1 })
  else .ok (y, n1, m, k)

/-- src/solver/search.rs:236-395 one iteration of the main loop, see `Splr.stepW`. The choice `t.o.pick` is not used. -/
def stepA (c : CfgW) (t : TickW K) (z : WholeA) : ResQ WholeA :=
  match z.1.x.decideStepQ t.o.phase with
  | .none => .panic
  | some x1 =>
    match propagateQ t.o.q z.1.db x1 with
    | .ok db1 x2 => .ok ({ z.1 with db := db1, x := x2 }, z.2)
    | .panic => .panic
    | .fuel => .fuel
    | .conflict db1 x2 l r =>
      if x2.s.dl = 0 then .unsat db1 x2
      else
        match handleConflictA db1 x2 t.o.low t.o.rr t.o.drift l r with
        | .panic => .panic
        | .unsat db2 x3 => .unsat db2 x3
        | .ok db2 x3 rank => conflictA c t rank { z.1 with db := db2, x := x3 } z.2.1 z.2.2.1 z.2.2.2

/-- src/solver/search.rs:236-395 the main loop, see `Splr.loopW`. -/
def loopA (c : CfgW) : List (TickW K) → WholeA → ResQ WholeA
  | [], z => .ok z
  | t :: ts, z => if z.1.x.s.running then (stepA c t z).bind (loopA c ts) else .ok z

/-- src/solver/search.rs:47-158 preprocessing, see `Splr.preprocessW`. -/
def preprocessA (c : CfgW) (o : PreW) (n : Counts) (y : SolQ) : ResQ SolQ :=
  if o.oom then .err
  else
    (vivifyA c n o.used (y.db, y.x)).bind fun y1 =>
      (((PResQ.toRes (propagateSandboxQ y1.1 y1.2)).bind fun z => if o.oom1 then .err else .ok z).orOom o.oom1).bind fun y2 =>
        if c.cfg.enable then
          (prepareA (o.ctl.lims c.cfg.evo y.cnf) o.ctl.flags y2).bind fun w =>
            (pureLoopA (o.ctl.lims c.cfg.evo y.cnf) w.1.2 w.1.1.2.s.numVars 1 w.1.1 w.2).bind fun y3 =>
              ((simplifyA (o.ctl.lims c.cfg.evo y.cnf) o.ctl o.oom2 ((y3.1, w.1.2), y3.2)).orOom o.oom2).bind fun z =>
                lift z.1.2.rebuildOrderQ fun x => .ok { y with db := z.1.1, x := x, store := y.store ++ z.2.lits }
        else
          (y2.2.read fun s => prepare false c.cfg.evo y.cnf (y2.1, s)).bind fun w =>
            (pureLoopQ y.cnf w.2 w.1.2.s.numVars 1 w.1).bind fun y3 =>
              ((simplifyQ false c.cfg.evo [] o.oom2 (y3, w.2)).orOom o.oom2).bind fun z =>
                lift z.1.2.rebuildOrderQ fun x => .ok { y with db := z.1.1, x := x, store := y.store ++ z.2.lits }

/-- src/solver/search.rs:47-219 `solve`, see `Splr.solveW`. -/
def solveA (c : CfgW) (p : PreW) (m : StageManager) (n : Counts) (ts : List (TickW K)) (low : Nat → Bool) (y : SolQ) : AnsQ :=
  match (preprocessA c p n y).bind fun z => (loopA c ts (z, 0, m.initialize 32, { n with vivs := n.vivs + 1 })).bind fun w => .ok w.1 with
  | .ok z => if z.x.s.running then .more z else finishQ low z
  | .unsat db _ => .unsat db
  | .err => .err
  | .panic => .panic
  | .fuel => .fuel

end QStk
end Splr
