import Verif.Model.QueueSearch
/-!
# The whole solver with the array queue and range checks

The rest of `solve`: the root level, vivification, the eliminator, preprocessing, the ends of stages, and the API, once more with the array queue
(Verif/Model/Queue.lean) and with checks of the indices into the arrays of the variables and of the clauses. The functions have the suffix `Q`; see the functions of
the same name in Verif/Model/{Root,Vivify,Elim,Solve,Build}.lean.
-/
namespace Splr

/-- The result of a function returning `MaybeInconsistent`, see `Res`. -/
inductive ResQ (α : Type) where
  | ok (a : α)
  | unsat (db : Cdb) (x : QStk)
  | err
  | panic
  | fuel

namespace ResQ

/-- The operator `?`. -/
def bind {α β : Type} (r : ResQ α) (f : α → ResQ β) : ResQ β :=
  match r with
  | ok a => f a
  | unsat db x => unsat db x
  | err => err
  | panic => panic
  | fuel => fuel

/-- A check before what follows. -/
def chk {α : Type} (b : Bool) (r : ResQ α) : ResQ α := if b then r else panic

/-- An operation that can panic before what follows. -/
def lift {α β : Type} (o : Option α) (k : α → ResQ β) : ResQ β :=
  match o with
  | some a => k a
  | .none => panic

/-- src/solver/search.rs:75-84, 127-135, see `Res.orOom`. -/
def orOom {α : Type} (r : ResQ α) (oom : Bool) : ResQ α :=
  match r with
  | .unsat db x => if oom then .err else .unsat db x
  | r => r

end ResQ

namespace QStk
open ResQ

/-- A state of the solver inside `solve`. -/
abbrev DQ := Cdb × QStk

/-- `.map_err(SolverError::RootLevelConflict)` -/
def PResQ.toRes : PResQ → ResQ DQ
  | .ok db x => .ok (db, x)
  | .conflict db x _ _ => .unsat db x
  | .panic => .panic
  | .fuel => .fuel

/-- The literals of a clause are in range. -/
def okLits (x : QStk) (c : Cls) : Bool := c.all fun l => x.okV l.var

/-- src/types/clause.rs:273-302 the rank of a clause: a table indexed by levels. -/
def okRank (x : QStk) (c : Cls) : Bool := c.all fun l => x.okV l.var && decide (x.s.level l.var ≤ x.s.numVars)

/-- A function that reads the trail and does not change it; `f` gets its fields. -/
def read {α : Type} (x : QStk) (f : Stk → Res (DS × α)) : ResQ (DQ × α) :=
  match f x.s with
  | .ok ((db, _), a) => .ok ((db, x), a)
  | .unsat db _ => .unsat db x
  | .err => .err
  | .panic => .panic
  | .fuel => .fuel

/-! ## the root level -/

/-- `assign_at_root_level`, see `Stk.assignRootRes`. -/
def assignRootResQ (x : QStk) (db : Cdb) (l : Lit) : ResQ DQ :=
  chk (x.okV l.var)
    (match x.assignRootQ noLow l with
    | some (x1, true) => .ok (db, x1)
    | some (x1, false) => .unsat db x1
    | .none => .panic)

/-- `remove_clause`, see `Cdb.removeRes`. -/
def removeResQ (db : Cdb) (x : QStk) (cid : Nat) : ResQ DQ :=
  chk (okC db cid) (lift (db.removeClause cid) fun db1 => .ok (db1, x))

/-- src/assign/propagate.rs:781-801, see `simpOne`. -/
def simpOneQ (y : DQ) (cid : Nat) : ResQ DQ :=
  if (y.1.clause cid).dead then .ok y
  else
    chk (okC y.1 cid && y.2.okLits (y.1.clause cid).lits)
      (match y.1.transformBySimplification y.2.s.assign y.2.s.elim cid with
      | .none => .panic
      | some (db1, .emptyClause) => .unsat db1 y.2
      | some (db1, .unit l) => (y.2.assignRootResQ (db1.log (.add [l])) l).bind fun z => removeResQ z.1 z.2 cid
      | some (db1, _) => .ok (db1, y.2))

/-- src/assign/propagate.rs:780-801, see `simpPass`. -/
def simpPassQ : List Nat → DQ → ResQ DQ
  | [], y => .ok y
  | cid :: cids, y => (simpOneQ y cid).bind (simpPassQ cids)

/-- src/assign/propagate.rs:776-805, see `rootLoop`. -/
def rootLoopQ : Nat → Nat → DQ → ResQ DQ
  | 0, _, _ => .fuel
  | n + 1, np, y =>
    if np < y.2.s.trail.length then (simpPassQ y.1.ids y).bind (rootLoopQ n y.2.s.trail.length) else .ok y

/-- `propagate_sandbox` if something remains to be propagated, see `propRemains`. -/
def propRemainsQ (y : DQ) : ResQ DQ := if y.2.s.remains then PResQ.toRes (propagateSandboxQ y.1 y.2) else .ok y

/-- src/assign/propagate.rs:746-761, see `clearLoop`. -/
def clearLoopQ : Nat → DQ → ResQ DQ
  | 0, _ => .fuel
  | n + 1, y =>
    (propRemainsQ y).bind fun y1 =>
      (rootLoopQ (y1.2.s.numVars + 2) 0 y1).bind fun y2 =>
        if y2.2.s.remains then (PResQ.toRes (propagateSandboxQ y2.1 y2.2)).bind (clearLoopQ n) else .ok y2

/-- src/assign/propagate.rs:746-767 `clear_asserted_literals`, see `clearAsserted`. -/
def clearAssertedQ (y : DQ) : ResQ DQ :=
  (clearLoopQ (y.2.s.numVars + 2) y).bind fun z => .ok (z.1, { z.2 with s := z.2.s.archive })

/-! ## vivification -/

/-- src/cdb/vivify.rs:249-335 `analyze_sandbox`, see `sandboxSweep`. -/
def sandboxSweepC (db : Cdb) (x : QStk) (decisions : List Lit) : List Lit → (Nat → Bool) → Option Cls
  | [], _ => some []
  | l :: ls, seen =>
    if x.okV l.var then
      if seen l.var then
        let keep := if l ∈ decisions then [l.neg] else []
        match x.s.reason l.var with
        | .decision _ => (sandboxSweepC db x decisions ls seen).map (keep ++ ·)
        | .binary m => if x.okV m.var then (sandboxSweepC db x decisions ls (upd seen m.var true)).map (keep ++ ·) else .none
        | .impl cid =>
          if okC db cid && x.okLits (db.clause cid).lits then
            (sandboxSweepC db x decisions ls
              (fun v => seen v || decide (v ∈ ((db.clause cid).lits.drop 1).map Lit.var))).map (keep ++ ·)
          else .none
        | .none => .none
      else sandboxSweepC db x decisions ls seen
    else .none

/-- src/cdb/vivify.rs:71-136, see `VDec`. -/
inductive VDecQ where
  | done (db : Cdb) (x : QStk)
  | conflict (db : Cdb) (x : QStk) (decisions : List Lit) (l : Lit) (r : Reason)
  | panic
  | fuel

/-- src/cdb/vivify.rs:71-80, see `vivDecide`. -/
def vivDecideQ : Cls → List Lit → Cdb → QStk → VDecQ
  | [], _, db, x => .done db x
  | l :: ls, decisions, db, x =>
    if x.okV l.var then
      match x.s.val l with
      | some true => vivDecideQ ls decisions db x
      | some false => .done db x
      | .none =>
        match propagateSandboxQ db { x with s := x.s.assignDecision l.neg } with
        | .ok db1 x1 => vivDecideQ ls (decisions ++ [l.neg]) db1 x1
        | .conflict db1 x1 cl r => .conflict db1 x1 (decisions ++ [l.neg]) cl r
        | .panic => .panic
        | .fuel => .fuel
    else .panic

/-- src/cdb/vivify.rs:117-140, see `vivApply`. -/
def vivApplyQ (y : DQ) (cid : Nat) (learnt : Bool) : Cls → ResQ DQ
  | [] => .unsat y.1 y.2
  | [l] => y.2.assignRootResQ (y.1.log (.add [l])) l
  | vec => chk (y.2.okRank vec) (lift (y.1.newClause y.2.s.level vec learnt) fun r => removeResQ r.1 y.2 cid)

/-- src/cdb/vivify.rs:82-140 a conflict, see `vivOne`. -/
def vivConflictQ (learnt : Bool) (clits : Cls) (cid : Nat) (db : Cdb) (x : QStk) (decisions : List Lit) (l : Lit) (r : Reason) : ResQ DQ :=
  chk (rootC db x r)
    (match vivConflicting db cid clits decisions l r with
    | .none => .panic
    | some .none => lift x.backtrackSandboxQ fun x1 => .ok (db, x1)
    | some (some conf) =>
      chk (x.okLits conf)
        (match sandboxSweepC db x decisions (x.s.trail.drop (x.s.lim.getD 0 0)).reverse (fun v => decide (v ∈ conf.map Lit.var)) with
        | .none => .panic
        | some vec => lift x.backtrackSandboxQ fun x1 => vivApplyQ (db, x1) cid learnt vec))

/-- src/cdb/vivify.rs:42-145 one target, see `vivOne`. -/
def vivOneQ (y : DQ) (cid : Nat) : ResQ DQ :=
  lift y.2.backtrackSandboxQ fun x0 =>
    (propRemainsQ (y.1, x0)).bind fun y =>
      if (y.1.clause cid).dead then .ok y
      else
        chk (okC y.1 cid)
          (match vivDecideQ (y.1.clause cid).lits [] y.1 y.2 with
          | .done db x => .ok (db, x)
          | .panic => .panic
          | .fuel => .fuel
          | .conflict db x decisions l r => vivConflictQ (y.1.clause cid).learnt (y.1.clause cid).lits cid db x decisions l r)

/-- src/cdb/vivify.rs:41-149, see `vivLoop`. -/
def vivLoopQ : List Nat → DQ → ResQ DQ
  | [], y => .ok y
  | cid :: cids, y => (vivOneQ y cid).bind (vivLoopQ cids)

/-- src/cdb/vivify.rs:18-185 `vivify`, see `Splr.vivify`. -/
def vivifyQ (targets : List Nat) (y : DQ) : ResQ DQ :=
  (propRemainsQ y).bind fun y1 =>
    if targets = [] then .ok y1
    else (vivLoopQ targets y1).bind fun y2 =>
      lift y2.2.backtrackSandboxQ fun x => (propRemainsQ (y2.1, x)).bind clearAssertedQ

/-! ## the eliminator -/

/-- src/processor/subsume.rs:33-34, see `Splr.dropClause`. -/
def dropClauseQ (y : DQ) (e : El) (cid : Nat) : ResQ (DQ × El) :=
  chk (okC y.1 cid && y.2.okLits (y.1.clause cid).lits) (y.2.read fun s => Splr.dropClause (y.1, s) e cid)

/-- src/processor/subsume.rs:15-48, see `Splr.trySubsume`. -/
def trySubsumeQ (y : DQ) (e : El) (cid did : Nat) : ResQ (DQ × El) :=
  chk (okC y.1 cid && okC y.1 did && y.2.okLits (y.1.clause did).lits) (y.2.read fun s => Splr.trySubsume (y.1, s) e cid did)

/-- src/processor/subsume.rs:88-123, see `Splr.strengthen`. -/
def strengthenQ (y : DQ) (e : El) (cid : Nat) (l : Lit) : ResQ (DQ × El) :=
  chk (okC y.1 cid && y.2.okV l.var)
    (match y.1.transformByElimination cid l with
    | some (db1, .clause _) => .ok ((db1, y.2), e.removeLit l cid)
    | some (db1, .registered _) => dropClauseQ (db1, y.2) e cid
    | some (db1, .unit l0) =>
      (dropClauseQ (db1.log (.add [l0]), y.2) e cid).bind fun z =>
        chk (z.1.2.okV l0.var)
          (match z.1.2.s.val l0 with
          | .none => (z.1.2.assignRootResQ z.1.1 l0).bind fun w => .ok (w, z.2)
          | some true => .ok z
          | some false => .unsat z.1.1 z.1.2)
    | _ => .panic)

/-- src/processor/subsume.rs:15-48, see `Splr.tryLifted`. -/
def tryLiftedQ (y : DQ) (e : El) (l : Lit) (did : Nat) : ResQ (DQ × El) :=
  chk (okC y.1 did) (if l.neg ∈ (y.1.clause did).lits then strengthenQ y e did l.neg else .ok (y, e))

/-- src/processor/eliminate.rs:60-103 one pair of clauses, see `Splr.resolveOne`. -/
def resolveOneQ (evo v : Nat) (p n : Nat) (y : DQ × El) : ResQ (DQ × El) :=
  let cp := y.1.1.clause p
  let cn := y.1.1.clause n
  chk (okC y.1.1 p && okC y.1.1 n && y.1.2.okLits cp.lits && y.1.2.okLits cn.lits)
    (match mergeLits v cp.lits cn.lits with
    | [] => .ok y
    | [l] =>
      match y.1.2.s.val l with
      | some true => .ok y
      | some false => .unsat y.1.1 y.1.2
      | .none => (y.1.2.assignRootResQ (y.1.1.log (.add [l])) l).bind fun z => .ok (z, y.2)
    | vec =>
      chk (y.1.2.okRank vec)
        (match y.1.1.newClause y.1.2.s.level vec (cp.learnt && cn.learnt) with
        | .none => .panic
        | some (db1, .clause ci) => .ok (((addCid evo (db1, y.1.2.s) y.2 ci).1.1, y.1.2), (addCid evo (db1, y.1.2.s) y.2 ci).2)
        | some (db1, _) => .ok ((db1, y.1.2), y.2)))

/-- src/processor/eliminate.rs:56-107, see `Splr.resolveAll`. -/
def resolveAllQ (evo v : Nat) : List (Nat × Nat) → DQ × El → ResQ (DQ × El)
  | [], y => .ok y
  | (p, n) :: ps, y => (resolveOneQ evo v p n y).bind (resolveAllQ evo v ps)

/-- src/processor/eliminate.rs:113-130, see `Splr.dropAll`. -/
def dropAllQ : List Nat → DQ × El → ResQ (DQ × El)
  | [], y => .ok y
  | cid :: cids, y => if (y.1.1.clause cid).dead then dropAllQ cids y else (dropClauseQ y.1 y.2 cid).bind (dropAllQ cids)

/-- src/processor/eliminate.rs:10-136, see `Splr.eliminateVar`. -/
def eliminateVarQ (evo v : Nat) (y : DQ) (e : El) : ResQ (DQ × El) :=
  let pos := (e.pos v).filter fun c => decide (⟨v, true⟩ ∈ (y.1.clause c).lits)
  let neg := (e.neg v).filter fun c => decide (⟨v, false⟩ ∈ (y.1.clause c).lits)
  let e1 := { e with pos := upd e.pos v pos, neg := upd e.neg v neg,
                     lits := e.lits ++ elimClauses v (pos.map fun c => (y.1.clause c).lits) (neg.map fun c => (y.1.clause c).lits) }
  chk ((pos ++ neg).all (okC y.1))
    ((resolveAllQ evo v (pos.flatMap fun p => neg.map fun n => (p, n)) (y, e1)).bind fun z =>
      (dropAllQ (pos ++ neg) z).bind fun w => lift (w.1.2.makeEliminatedQ v) fun x => .ok ((w.1.1, x), w.2.clearVar v))

/-- One action, guarded by what the code checks, see `Splr.runCmd`. -/
def runCmdQ (evo : Nat) (y : DQ × El) : ECmd → ResQ (DQ × El)
  | .subsume cid did =>
    if cid = did ∨ (y.1.1.clause cid).dead = true ∨ (y.1.1.clause did).dead = true then .ok y else trySubsumeQ y.1 y.2 cid did
  | .lifted l did => if l ∉ y.1.2.s.trail ∨ (y.1.1.clause did).dead = true then .ok y else tryLiftedQ y.1 y.2 l did
  | .elimVar v =>
    if v = 0 ∨ y.1.2.s.numVars < v ∨ y.1.2.s.elim v = true ∨ y.1.2.s.assign v ≠ none ∨ y.2.aborted v = true then .ok y
    else eliminateVarQ evo v y.1 y.2
  | .propagate => (PResQ.toRes (propagateSandboxQ y.1.1 y.1.2)).bind fun z => .ok (z, y.2)
  | .retain v sift =>
    .ok (y.1, y.2.keep v fun l c => if sift then decide (l ∈ (y.1.1.clause c).lits) else !(y.1.1.clause c).dead)

/-- src/processor/simplify.rs:510-578, see `Splr.runCmds`. -/
def runCmdsQ (evo : Nat) : List ECmd → DQ × El → ResQ (DQ × El)
  | [], y => .ok y
  | c :: cs, y => (runCmdQ evo y c).bind (runCmdsQ evo cs)

/-- src/processor/simplify.rs:260-306, see `Splr.simplify`. -/
def simplifyQ (enable : Bool) (evo : Nat) (cmds : List ECmd) (oom : Bool) (y : DQ × El) : ResQ (DQ × El) :=
  if enable then
    (runCmdsQ evo (cmds ++ [.propagate]) y).bind fun z => if oom then .err else .ok ((z.1.1.unlinkAll, z.1.2), z.2)
  else (PResQ.toRes (propagateSandboxQ y.1.1 y.1.2)).bind fun z => if oom then .err else .ok (z, y.2)

/-! ## `solve` -/

/-- src/solver/search.rs:93-121, see `Splr.pureLoop`. -/
def pureLoopQ (cnf : Nat) (e : El) : Nat → Nat → DQ → ResQ DQ
  | 0, _, y => .ok y
  | n + 1, vi, y =>
    chk (y.2.okV vi)
      (if y.2.s.assign vi ≠ none then pureLoopQ cnf e n (vi + 1) y
      else if cnf + 1 < vi then .panic
      else if e.aborted vi then pureLoopQ cnf e n (vi + 1) y
      else if e.neg vi = [] then
        (y.2.assignRootResQ (y.1.log (.add [⟨vi, true⟩])) ⟨vi, true⟩).bind (pureLoopQ cnf e n (vi + 1))
      else if e.pos vi = [] then
        (y.2.assignRootResQ (y.1.log (.add [⟨vi, false⟩])) ⟨vi, false⟩).bind (pureLoopQ cnf e n (vi + 1))
      else pureLoopQ cnf e n (vi + 1) y)

end QStk

/-- src/solver/mod.rs:74-79 `struct Solver`, see `Sol`. -/
structure SolQ where
  db : Cdb
  x : QStk
  store : List Lit
  cnf : Nat

namespace QStk
open ResQ

/-- src/solver/search.rs:47-158, see `Splr.preprocess`. -/
def preprocessQ (cfg : Cfg) (o : Pre) (y : SolQ) : ResQ SolQ :=
  if o.oom then .err
  else
    (vivifyQ o.targets (y.db, y.x)).bind fun y1 =>
      (((PResQ.toRes (propagateSandboxQ y1.1 y1.2)).bind fun z => if o.oom1 then .err else .ok z).orOom o.oom1).bind fun y2 =>
        (y2.2.read fun s => prepare cfg.enable cfg.evo y.cnf (y2.1, s)).bind fun z =>
          (pureLoopQ y.cnf z.2 z.1.2.s.numVars 1 z.1).bind fun y3 =>
            ((simplifyQ cfg.enable cfg.evo o.cmds o.oom2 (y3, z.2)).orOom o.oom2).bind fun w =>
              lift w.1.2.rebuildOrderQ fun x => .ok { y with db := w.1.1, x := x, store := y.store ++ w.2.lits }

/-- `reduce`, see `Cdb.reduceRes`. -/
def reduceResQ (db : Cdb) (x : QStk) (victims : List Nat) : ResQ DQ := lift (db.reduce x.s.level victims) fun db1 => .ok (db1, x)

/-- src/solver/search.rs:341-353, see `Splr.segmentElim`. -/
def segmentElimQ (cfg : Cfg) (o : StageOrc) (y : SolQ) : ResQ SolQ :=
  (y.x.read fun s => prepare cfg.enable cfg.evo y.cnf (y.db, s)).bind fun z =>
    (simplifyQ cfg.enable cfg.evo o.cmds o.oom z).bind fun w =>
      .ok { y with db := w.1.1, x := w.1.2, store := y.store ++ w.2.lits }

/-- src/solver/search.rs:251-378, see `Splr.stageStep`. -/
def stageStepQ (cfg : Cfg) (o : StageOrc) (low : Nat → Bool) (y : SolQ) : ResQ SolQ :=
  if o.timeout then .err
  else
    lift (y.x.cancelUntilQ low 0) fun x0 =>
      (clearAssertedQ (y.db, x0)).bind fun y1 =>
        (reduceResQ y1.1 y1.2 o.victims).bind fun y2 =>
          (if o.cycle then
            (vivifyQ o.targets y2).bind fun y3 =>
              if o.segment then segmentElimQ cfg o { y with db := y3.1, x := y3.2 } else .ok { y with db := y3.1, x := y3.2 }
          else .ok { y with db := y2.1, x := y2.2 }).bind fun z => lift z.x.clearSavedQ fun x => .ok { z with x := x }

/-- src/solver/search.rs:249-385, see `Splr.afterConflict`. -/
def afterConflictQ (cfg : Cfg) (o : Orc) (y : SolQ) : ResQ SolQ :=
  match o.stage with
  | some st => stageStepQ cfg st o.low2 y
  | .none => if o.restart then lift (y.x.cancelUntilQ o.low2 0) fun x => .ok { y with x := x } else .ok y

/-- src/solver/search.rs:236-395 one iteration of the main loop, see `Splr.searchStep`. The choice `o.pick` is not used. -/
def searchStepQ (cfg : Cfg) (o : Orc) (y : SolQ) : ResQ SolQ :=
  match y.x.decideStepQ o.phase with
  | .none => .panic
  | some x1 =>
    match propagateQ o.q y.db x1 with
    | .ok db1 x2 => .ok { y with db := db1, x := x2 }
    | .panic => .panic
    | .fuel => .fuel
    | .conflict db1 x2 l r =>
      if x2.s.dl = 0 then .unsat db1 x2
      else
        match handleConflictQ db1 x2 o.low o.rr o.drift l r with
        | .panic => .panic
        | .unsat db2 x3 => .unsat db2 x3
        | .ok db2 x3 => afterConflictQ cfg o { y with db := db2, x := x3 }

/-- src/solver/search.rs:223-422, see `Splr.search`. -/
def searchQ (cfg : Cfg) : List Orc → SolQ → ResQ SolQ
  | [], y => .ok y
  | o :: os, y => if y.x.s.running then (searchStepQ cfg o y).bind (searchQ cfg os) else .ok y

/-- The answers of `solve`, see `Ans`. -/
inductive AnsQ where
  | sat (vals : List Int) (y : SolQ)
  | unsat (db : Cdb)
  | err
  | panic
  | fuel
  | more (y : SolQ)

/-- src/solver/search.rs:163-206, see `Splr.finish`. -/
def finishQ (low : Nat → Bool) (y : SolQ) : AnsQ :=
  match extendModel y.store y.x.s.assign with
  | .none => .panic
  | some m =>
    match y.db.validate m false with
    | some _ => .err
    | .none =>
      match modelVals m y.x.s.numVars with
      | .none => .panic
      | some vals =>
        match cancelUntilQ low 0 { y.x with s := { y.x.s with elim := fun v => if v = 0 then y.x.s.elim 0 else false } } with
        | .none => .panic
        | some x => .sat vals { y with x := x }

/-- src/solver/search.rs:47-219 `solve`, see `Splr.solve`. -/
def solveQ (cfg : Cfg) (p : Pre) (os : List Orc) (low : Nat → Bool) (y : SolQ) : AnsQ :=
  match (preprocessQ cfg p y).bind (searchQ cfg os) with
  | .ok z => if z.x.s.running then .more z else finishQ low z
  | .unsat db _ => .unsat db
  | .err => .err
  | .panic => .panic
  | .fuel => .fuel

end QStk

/-! ## the API -/

namespace SolQ
open QStk

/-- src/solver/build.rs:113-127, see `Sol.new`. -/
def new (nv : Nat) (act : Nat → Nat → Nat → Bool) : SolQ := { db := Cdb.new, x := QStk.new nv act, store := [], cnf := nv }

/-- src/solver/build.rs:252-283 `add_unchecked_clause`, see `Sol.addUnchecked`; `none` = panic. -/
def addUnchecked (y : SolQ) (c : Cls) : Option (SolQ × RefClause) :=
  if c = [] then some (y, .emptyClause)
  else if y.x.okLits c then
    match normLits y.x.s.val (sortLits c) none with
    | none => some (y, .dead)
    | some [] => some (y, .emptyClause)
    | some [l] =>
      match y.x.assignRootQ noLow l with
      | some (x1, true) => some ({ y with db := y.db.log (.add [l]), x := x1 }, .unit l)
      | some (x1, false) => some ({ y with db := y.db.log (.add [l]), x := x1 }, .emptyClause)
      | none => none
    | some v =>
      if y.x.okRank v then
        match y.db.newClause y.x.s.level v false with
        | none => none
        | some (db1, r) => some ({ y with db := db1 }, r)
      else none
  else none

/-- src/solver/build.rs:177, 195-199, see `Sol.badLit`. -/
def badLit (y : SolQ) (i : Int) : Bool := decide (i = 0) || decide (y.x.s.numVars < i.natAbs)

/-- src/solver/build.rs:191-213 `add_clause`, see `Sol.addClause`. -/
def addClause (y : SolQ) (v : List Int) : Option (SolQ × Option ApiErr) :=
  if v.any y.badLit then some (y, some .invalidLiteral)
  else if v = [] then some (y, some .emptyClause)
  else
    match y.addUnchecked (v.map Lit.ofInt) with
    | none => none
    | some (z, .emptyClause) => some (z, some .emptyClause)
    | some (z, _) => some (z, none)

/-- src/solver/build.rs:176-190 `add_assignment`, see `Sol.addAssignment`. -/
def addAssignment (y : SolQ) (i : Int) : Option (SolQ × Option ApiErr) :=
  if y.badLit i then some (y, some .invalidLiteral)
  else
    let l := Lit.ofInt i
    let db := y.db.log (.add [l])
    if y.x.okV l.var then
      match y.x.s.val l with
      | none =>
        match y.x.assignRootQ noLow l with
        | some (x1, true) => some ({ y with db := db, x := x1 }, none)
        | some (x1, false) => some ({ y with db := db, x := x1 }, some .rootConflict)
        | none => none
      | some true => some ({ y with db := db }, none)
      | some false => some ({ y with db := db }, some .rootConflict)
    else none

/-- src/solver/build.rs:214-222 `add_var`, see `Sol.addVar`. -/
def addVar (y : SolQ) : SolQ := { y with x := y.x.newVarQ }

end SolQ
end Splr
