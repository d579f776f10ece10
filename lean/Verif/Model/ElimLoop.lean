import Verif.Model.Solve
import Verif.Model.OccHeap
/-!
# The control loops of the eliminator: src/processor/{simplify,subsume,eliminate}.rs

`Model/Elim.lean` runs an arbitrary list of commands. Here is the program that issues them: the queue of clauses, the queue of
variables (the array heap of `Model/OccHeap.lean`), the literals of the trail still to be used, and the budget `timedout`. The functions follow
the source one by one and carry the queues along (suffix `Q`). What remains open are: the initial budget (an arbitrary function of the
state, it is computed with floating point numbers), the outcome of `skip_var_elimination` (an arbitrary function of the state) and the clock.
Loops have fuel; `fuel` is never returned (C56).
-/
namespace Splr
open Heap

/-- src/types/clause.rs `ClauseId`: a clause, or a lifted literal. -/
inductive QItem where
  | clause (cid : Nat)
  | lit (l : Lit)
deriving DecidableEq

/-- The part of src/processor/mod.rs:87-107 `struct Eliminator` that controls the loops: `clause_queue` (top first), `var_queue` with the
flags ENQUEUED of the variables, the flags ENQUEUED of the clauses, `bwdsub_assigns`; and the local variable `timedout` of
`eliminate_main`. -/
structure Queues where
  clauses : List QItem
  vars : OccQ
  flag : Nat → Bool
  bwd : Nat
  budget : Nat

/-- The limits of src/processor/mod.rs:87-107; `cnf`: the number of variables the eliminator was made for. -/
structure Lims where
  evo : Nat
  occ : Nat
  sub : Nat
  cnf : Nat

/-- The state of the loops. -/
abbrev ES := (DS × El) × Queues

/-- src/processor/heap.rs:38-44 `activity` of a variable that is not given up. -/
def El.act (e : El) (v : Nat) : Nat := min (e.pos v).length (e.neg v).length

/-- The order of the heap: `activity(u) > activity(v)`, where the activity of a variable given up is `usize::MAX`. -/
def El.worse (e : El) (u v : Nat) : Bool := !e.aborted v && (e.aborted u || decide (e.act v < e.act u))

/-- src/processor/simplify.rs:250-259 `enqueue_var`. There are `cnf + 2` occurrence lists (src/processor/simplify.rs:197). -/
def enqVar (p : Lims) (e : El) (q : Queues) (v : Nat) (up : Bool) : Res Queues :=
  if p.cnf + 1 < v then .panic
  else
    match q.vars.step e.worse (.enqueue v (!e.aborted v && decide (e.act v < p.occ)) up) with
    | none => .panic
    | some (_, vq) => .ok { q with vars := vq }

/-- src/processor/simplify.rs:601-611 `enqueue_clause` of a clause with `len` literals. -/
def enqClause (p : Lims) (len : Nat) (q : Queues) (cid : Nat) : Queues :=
  if q.flag cid || decide (p.sub < len) then q
  else { q with clauses := .clause cid :: q.clauses, flag := upd q.flag cid true }

/-- src/processor/simplify.rs:613-618 `clear_clause_queue`; the index of a lifted literal is out of range. -/
def clearClauses (q : Queues) : Res Queues :=
  if q.clauses.any (fun i => match i with | .lit _ => true | .clause _ => false) then .panic
  else .ok { q with clauses := [], flag := fun i => q.flag i && !q.clauses.contains (.clause i) }

/-- src/processor/simplify.rs:629-631 `clear_var_queue` -/
def clearVars (e : El) (q : Queues) : Res Queues :=
  match q.vars.step e.worse .clear with
  | none => .panic
  | some (_, vq) => .ok { q with vars := vq }

/-- The two together. -/
def clearQueues (z : ES) : Res ES := (clearClauses z.2).bind fun q => (clearVars z.1.2 q).bind fun q => .ok (z.1, q)

/-- A command on the state, the queues unchanged. -/
def onState (z : ES) (r : Res (DS × El)) : Res ES := r.bind fun y => .ok (y, z.2)

/-! ## occurrence lists -/

/-- src/processor/simplify.rs:580-595 `remove_lit_occur` -/
def removeLitQ (p : Lims) (l : Lit) (cid : Nat) (e : El) (q : Queues) : Res (El × Queues) :=
  if e.aborted l.var then .ok (e, q)
  else (enqVar p (e.removeLit l cid) q l.var true).bind fun q1 => .ok (e.removeLit l cid, q1)

/-- src/processor/simplify.rs:383-394 `remove_cid_occur` -/
def removeCidQ (p : Lims) (asg : Nat → Option Bool) (cid : Nat) : Cls → El → Queues → Res (El × Queues)
  | [], e, q => .ok (e, q)
  | l :: ls, e, q =>
    if (asg l.var).isNone then
      (removeLitQ p l cid e q).bind fun w => (enqVar p w.1 w.2 l.var true).bind fun q1 => removeCidQ p asg cid ls w.1 q1
    else removeCidQ p asg cid ls e q

/-- `dropClause` with the queues. -/
def dropClauseQ (p : Lims) (z : ES) (cid : Nat) : Res ES :=
  (removeCidQ p z.1.1.2.assign cid (z.1.1.1.clause cid).lits z.1.2 z.2).bind fun w =>
    ((z.1.1.1.setLinked cid false).removeRes z.1.1.2 cid).bind fun x => .ok ((x, w.1), w.2)

/-- src/processor/simplify.rs:343-377 the loop of `add_cid_occur` -/
def addLitsQ (p : Lims) (elim : Nat → Bool) (cid : Nat) : Cls → El → Queues → Res (El × Queues)
  | [], e, q => .ok (e, q)
  | l :: ls, e, q =>
    if p.evo < (e.pos l.var).length * (e.neg l.var).length ∨ elim l.var = true then addLitsQ p elim cid ls (e.addLit p.evo elim cid l) q
    else
      (enqVar p (e.addLit p.evo elim cid l) q l.var false).bind fun q1 => addLitsQ p elim cid ls (e.addLit p.evo elim cid l) q1

/-- src/processor/simplify.rs:325-381 `add_cid_occur` -/
def addCidQ (p : Lims) (z : ES) (cid : Nat) (enqueue : Bool) : Res ES :=
  if (z.1.1.1.clause cid).occurLinked then .ok z
  else
    (addLitsQ p z.1.1.2.elim cid (z.1.1.1.clause cid).lits z.1.2 z.2).bind fun w =>
      .ok (((z.1.1.1.setLinked cid true, z.1.1.2), w.1),
        if enqueue then enqClause p (z.1.1.1.clause cid).lits.length w.2 cid else w.2)

/-! ## subsumption -/

/-- src/processor/subsume.rs:88-123 `strengthen_clause` -/
def strengthenQ (p : Lims) (z : ES) (cid : Nat) (l : Lit) : Res ES :=
  match z.1.1.1.transformByElimination cid l with
  | some (db1, .clause _) =>
    (removeLitQ p l cid z.1.2 (enqClause p (db1.clause cid).lits.length z.2 cid)).bind fun w => .ok (((db1, z.1.1.2), w.1), w.2)
  | some (db1, .registered _) => dropClauseQ p (((db1, z.1.1.2), z.1.2), z.2) cid
  | some (db1, .unit l0) =>
    (dropClauseQ p (((db1.log (.add [l0]), z.1.1.2), z.1.2), z.2) cid).bind fun u =>
      match u.1.1.2.val l0 with
      | none => (u.1.1.2.assignRootRes u.1.1.1 l0).bind fun x => .ok ((x, u.1.2), u.2)
      | some true => .ok u
      | some false => .unsat u.1.1.1 u.1.1.2
  | _ => .panic

/-- src/processor/subsume.rs:15-48, 52-85 `try_subsume`, for a clause of the queue and for a lifted literal. -/
def trySubsumeQ (p : Lims) (z : ES) (item : QItem) (did : Nat) : Res ES :=
  match item with
  | .lit l =>
    if l.neg ∈ (z.1.1.1.clause did).lits then
      (strengthenQ p z did l.neg).bind fun u => (enqVar p u.1.2 u.2 l.var true).bind fun q => .ok (u.1, q)
    else .ok z
  | .clause cid =>
    if subsumes (z.1.1.1.clause cid).lits (z.1.1.1.clause did).lits then
      let db1 := if (z.1.1.1.clause did).learnt then z.1.1.1 else z.1.1.1.setC cid { z.1.1.1.clause cid with learnt := false }
      dropClauseQ p (((db1, z.1.1.2), z.1.2), z.2) did
    else .ok z

/-- src/processor/simplify.rs:452-471 the literal of the clause with the fewest occurrences of its negation (0: none). -/
def bestLoop (x : DS) (e : El) : Cls → Nat → Int → Nat
  | [], b, _ => b
  | l :: ls, b, tmp =>
    if x.2.assign l.var ≠ none ∨ e.aborted l.var = true then bestLoop x e ls b tmp
    else if x.2.elim l.var = false ∧ ((e.occ l.neg).length : Int) < tmp then bestLoop x e ls l.var (e.occ l.neg).length
    else bestLoop x e ls b tmp

/-- src/processor/simplify.rs:435-474 the variable whose occurrence lists are searched, 0 for `continue`; and the flag of the clause. -/
def bestVar (p : Lims) (z : ES) (item : QItem) : Nat × Queues :=
  match item with
  | .lit l => (if z.1.1.2.elim l.var then 0 else l.var, z.2)
  | .clause cid =>
    let q := { z.2 with flag := upd z.2.flag cid false }
    if (z.1.1.1.clause cid).dead || decide (p.sub < (z.1.1.1.clause cid).lits.length) then (0, q)
    else
      let b := bestLoop z.1.1 z.1.2 (z.1.1.1.clause cid).lits 0 z.1.1.1.numClause
      (if z.1.1.2.elim b then 0 else b, q)

/-- src/processor/simplify.rs:477-494 the loop over the occurrence lists; `true`: the budget is exhausted. -/
def scan (p : Lims) (item : QItem) : List Nat → ES → Res (ES × Bool)
  | [], z => .ok (z, false)
  | did :: ds, z =>
    if item = .clause did then scan p item ds z
    else if z.2.budget < (z.1.1.1.clause did).lits.length then .ok ((z.1, { z.2 with budget := 0 }), true)
    else
      let z1 : ES := (z.1, { z.2 with budget := z.2.budget - (z.1.1.1.clause did).lits.length })
      if (z.1.1.1.clause did).dead = false ∧ (z.1.1.1.clause did).lits.length ≤ p.sub then
        (trySubsumeQ p z1 item did).bind (scan p item ds)
      else scan p item ds z1

/-- src/processor/simplify.rs:421-433: take the next item of the queue; if it is empty, the next literal of the trail. -/
def nextItem (trail : List Lit) (q : Queues) : Option (QItem × Queues) :=
  match q.clauses with
  | i :: is => some (i, { q with clauses := is })
  | [] =>
    match trail[q.bwd]? with
    | some l => some (.lit l, { q with bwd := q.bwd + 1 })
    | none => none

/-- `propagate_sandbox` -/
def propagateQ (p : Lims) (z : ES) : Res ES := onState z (runCmd p.evo z.1 .propagate)

/-- src/processor/simplify.rs:414-505 `backward_subsumption_check` -/
def bwdLoop (p : Lims) : Nat → ES → Res ES
  | 0, _ => .fuel
  | n + 1, z =>
    match nextItem z.1.1.2.trail z.2 with
    | none => if z.1.1.2.remains then propagateQ p z else .ok z
    | some (item, q1) =>
      if q1.budget = 0 then clearQueues (z.1, q1)
      else
        let b := bestVar p (z.1, q1) item
        if b.1 = 0 then bwdLoop p n (z.1, b.2)
        else if p.cnf + 1 < b.1 then .panic
        else
          (onState (z.1, b.2) (runCmd p.evo z.1 (.retain b.1 false))).bind fun z1 =>
            (scan p item (z1.1.2.pos b.1 ++ z1.1.2.neg b.1) z1).bind fun u =>
              if u.2 then .ok u.1
              else (onState u.1 (runCmd p.evo u.1.1 (.retain b.1 false))).bind (bwdLoop p n)

/-- Enough fuel for `bwdLoop` (C56). -/
def bwdFuel (z : ES) : Nat := 3 * z.2.budget + z.2.clauses.length + 2 * z.1.1.2.trail.length + 1

/-- `backward_subsumption_check` -/
def backward (p : Lims) (z : ES) : Res ES := bwdLoop p (bwdFuel z) z

/-! ## elimination -/

/-- src/processor/eliminate.rs:60-103 one pair of clauses. A new clause has no flag. -/
def resolveOneQ (p : Lims) (v i j : Nat) (z : ES) : Res ES :=
  let cp := z.1.1.1.clause i
  let cn := z.1.1.1.clause j
  match mergeLits v cp.lits cn.lits with
  | [] => .ok z
  | [l] =>
    match z.1.1.2.val l with
    | some true => .ok z
    | some false => .unsat z.1.1.1 z.1.1.2
    | none => (z.1.1.2.assignRootRes (z.1.1.1.log (.add [l])) l).bind fun x => .ok ((x, z.1.2), z.2)
  | vec =>
    match z.1.1.1.newClause z.1.1.2.level vec (cp.learnt && cn.learnt) with
    | none => .panic
    | some (db1, .clause ci) => addCidQ p (((db1, z.1.1.2), z.1.2), { z.2 with flag := upd z.2.flag ci false }) ci true
    | some (db1, _) => .ok (((db1, z.1.1.2), z.1.2), z.2)

/-- src/processor/eliminate.rs:56-107 the cross product. -/
def resolveAllQ (p : Lims) (v : Nat) : List (Nat × Nat) → ES → Res ES
  | [], z => .ok z
  | (i, j) :: ps, z => (resolveOneQ p v i j z).bind (resolveAllQ p v ps)

/-- src/processor/eliminate.rs:113-130: the clauses of the variable are removed. -/
def dropAllQ (p : Lims) : List Nat → ES → Res ES
  | [], z => .ok z
  | cid :: cids, z => if (z.1.1.1.clause cid).dead then dropAllQ p cids z else (dropClauseQ p z cid).bind (dropAllQ p cids)

/-- src/processor/eliminate.rs:10-136 `eliminate_var`, of a variable without a value; `skip`: the outcome of `skip_var_elimination`. -/
def eliminateVarQ (p : Lims) (skip : Nat → DS × El → Bool) (v : Nat) (z : ES) : Res ES :=
  if z.1.2.aborted v then .ok z
  else
    (onState z (runCmd p.evo z.1 (.retain v true))).bind fun z1 =>
      let pos := z1.1.2.pos v
      let neg := z1.1.2.neg v
      if z1.2.budget < pos.length * neg.length ∨ skip v z1.1 = true then .ok z1
      else
        let x := z1.1.1
        let e1 := { z1.1.2 with
          lits := z1.1.2.lits ++ elimClauses v (pos.map fun c => (x.1.clause c).lits) (neg.map fun c => (x.1.clause c).lits) }
        (resolveAllQ p v (pos.flatMap fun i => neg.map fun j => (i, j))
          ((x, e1), { z1.2 with budget := z1.2.budget - pos.length * neg.length })).bind fun u =>
          (dropAllQ p (pos ++ neg) u).bind fun w => backward p (((w.1.1.1, w.1.1.2.makeEliminated v), w.1.2.clearVar v), w.2)

/-- src/processor/simplify.rs:557-563 the inner loop of `eliminate_main` -/
def varLoop (p : Lims) (skip : Nat → DS × El → Bool) : Nat → ES → Res ES
  | 0, _ => .fuel
  | n + 1, z =>
    match z.2.vars.step z.1.2.worse (.pop z.1.1.2.elim) with
    | none => .panic
    | some (none, vq) => .ok (z.1, { z.2 with vars := vq })
    | some (some v, vq) =>
      let z1 : ES := (z.1, { z.2 with vars := vq })
      if z.1.1.2.elim v = false ∧ z.1.1.2.assign v = none then (eliminateVarQ p skip v z1).bind (varLoop p skip n)
      else varLoop p skip n z1

/-- Enough fuel for `varLoop` (C56). -/
def varFuel (p : Lims) (z : ES) : Nat := (z.1.1.2.numVars + 1) * (p.cnf + 1) + 1

/-- src/processor/simplify.rs:553-577 the loop of `eliminate_main` -/
def mainLoop (p : Lims) (skip : Nat → DS × El → Bool) : Nat → ES → Res ES
  | 0, _ => .fuel
  | n + 1, z =>
    if z.2.bwd < z.1.1.2.trail.length ∨ z.2.vars.h.len ≠ 0 ∨ z.2.clauses ≠ [] then
      (if z.2.clauses ≠ [] ∨ z.2.bwd < z.1.1.2.trail.length then backward p z else .ok z).bind fun z1 =>
        (varLoop p skip (varFuel p z1) z1).bind fun z2 =>
          (backward p z2).bind fun z3 =>
            (propagateQ p z3).bind fun z4 =>
              if z4.2.budget = 0 then (clearQueues z4).bind (mainLoop p skip n)
              else mainLoop p skip n (z4.1, { z4.2 with budget := z4.2.budget - 1 })
    else .ok z

/-- Enough fuel for `mainLoop` (C56). -/
def mainFuel (z : ES) : Nat := 2 * z.2.budget + 2 * z.1.1.2.numVars + 2

/-- src/processor/simplify.rs:511-537 `eliminate`; `budget`: the start value of `timedout` (src/processor/simplify.rs:548-552);
`late`: the clock shows 0.1 seconds or more. -/
def elimLoop (p : Lims) (skip : Nat → DS × El → Bool) (budget : DS → Nat) (late : Nat → Bool) : Nat → Nat → ES → Res ES
  | 0, _, _ => .fuel
  | n + 1, k, z =>
    let z0 : ES := (z.1, { z.2 with budget := budget z.1.1 })
    (mainLoop p skip (mainFuel z0) z0).bind fun z1 =>
      (propagateQ p z1).bind fun z2 =>
        if z2.1.1.2.trail.length = z.1.1.2.trail.length ∧ z2.2.clauses = [] ∧ z2.2.vars.h.len = 0 then .ok z2
        else if late k then clearQueues z2
        else elimLoop p skip budget late n (k + 1) z2

/-- `eliminate` -/
def eliminateQ (p : Lims) (skip : Nat → DS × El → Bool) (budget : DS → Nat) (late : Nat → Bool) (z : ES) : Res ES :=
  elimLoop p skip budget late (z.1.1.2.numVars + 2) 0 z

/-! ## the callers -/

/-- What is left open in one run of the eliminator: the limits `eliminate_occurrence_limit` and `subsume_literal_limit`, the outcomes of
`skip_var_elimination`, the budgets, the clock, and the flags ENQUEUED that earlier eliminators left on the variables. -/
structure Ctl where
  occ : Nat
  sub : Nat
  skip : Nat → DS × El → Bool
  budget : DS → Nat
  late : Nat → Bool
  flags : Nat → Bool

/-- The limits of a run. -/
def Ctl.lims (c : Ctl) (evo cnf : Nat) : Lims := { evo := evo, occ := c.occ, sub := c.sub, cnf := cnf }

/-- src/processor/simplify.rs:186-200 a fresh eliminator for `n` variables. -/
def Queues.new (n : Nat) (flags : Nat → Bool) : Queues :=
  { clauses := [], vars := { h := VarHeap.new n 0, enq := flags }, flag := fun _ => false, bwd := 0, budget := 0 }

/-- src/processor/simplify.rs:232-240 the loop of `prepare` over the clauses. -/
def linkLoopQ (p : Lims) : List Nat → ES → Res ES
  | [], z => .ok z
  | cid :: cids, z =>
    if (z.1.1.1.clause cid).dead || (z.1.1.1.clause cid).occurLinked then linkLoopQ p cids z
    else (addCidQ p z cid false).bind (linkLoopQ p cids)

/-- src/processor/simplify.rs:241-247: the variables without a value are queued. -/
def enqLoop (p : Lims) (up : Bool) (x : Stk) (e : El) : List Nat → Queues → Res Queues
  | [], q => .ok q
  | v :: vs, q =>
    if x.elim v = true ∨ x.assign v ≠ none then enqLoop p up x e vs q else (enqVar p e q v up).bind (enqLoop p up x e vs)

/-- src/processor/simplify.rs:222-249 `prepare(_, _, true)` of a fresh eliminator. -/
def prepareQ (p : Lims) (flags : Nat → Bool) (x : DS) : Res ES :=
  (linkLoopQ p x.1.ids ((x, El.new), Queues.new p.cnf flags)).bind fun z =>
    (enqLoop p true z.1.1.2 z.1.2 ((List.range x.2.numVars).map (· + 1)) z.2).bind fun q => .ok (z.1, q)

/-- src/processor/simplify.rs:260-306 `simplify(_, _, _, false)` of a prepared eliminator, enabled. -/
def simplifyQ (p : Lims) (c : Ctl) (oom : Bool) (z : ES) : Res (DS × El) :=
  (eliminateQ p c.skip c.budget c.late z).bind fun u => if oom then .err else .ok ((u.1.1.1.unlinkAll, u.1.1.2), u.1.2)

end Splr
