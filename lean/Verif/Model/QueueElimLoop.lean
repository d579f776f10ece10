import Verif.Model.QueueSolve
import Verif.Model.Whole
/-!
# The control loops of the eliminator, with the array queue and range checks

The functions of Verif/Model/ElimLoop.lean and of Verif/Model/Whole.lean once more, on the trail with the array queue and with checks of the indices into the arrays of
the variables and of the clauses, as in Verif/Model/QueueSolve.lean. Together they are the whole `solve`: what remains open are floating-point statistics, clocks and
memory limits. The functions have the suffix `A`; see the functions of the same name with the suffix `Q` or `W`.
-/
namespace Splr
namespace QStk
open ResQ

/-- The state of the loops, see `ES`. -/
abbrev EQ := (DQ × El) × Queues

/-- The fields a function that only reads the trail can see. -/
def view (w : EQ) : ES := (((w.1.1.1, { w.1.1.2.s with heap := [] }), w.1.2), w.2)

/-- A function that reads the trail and does not change it. -/
def readA (w : EQ) (f : ES → Res ES) : ResQ EQ :=
  match f (view w) with
  | .ok (((db, _), e), q) => .ok (((db, w.1.1.2), e), q)
  | .unsat db _ => .unsat db w.1.1.2
  | .err => .err
  | .panic => .panic
  | .fuel => .fuel

/-- A function of the queues only. -/
def queueA {α : Type} (r : Res α) (k : α → ResQ EQ) : ResQ EQ :=
  match r with
  | .ok a => k a
  | .unsat _ _ => .panic
  | .err => .err
  | .panic => .panic
  | .fuel => .fuel

/-- The clause `cid` and its literals are in range. -/
def okCl (w : EQ) (cid : Nat) : Bool := okC w.1.1.1 cid && w.1.1.2.okLits (w.1.1.1.clause cid).lits

/-! ## subsumption -/

/-- src/processor/subsume.rs:33-34, see `Splr.dropClauseQ`. -/
def dropClauseA (p : Lims) (w : EQ) (cid : Nat) : ResQ EQ := chk (okCl w cid) (readA w fun z => Splr.dropClauseQ p z cid)

/-- src/processor/subsume.rs:88-123 `strengthen_clause`, see `Splr.strengthenQ`. -/
def strengthenA (p : Lims) (w : EQ) (cid : Nat) (l : Lit) : ResQ EQ :=
  chk (okCl w cid && w.1.1.2.okV l.var)
    (match w.1.1.1.transformByElimination cid l with
    | some (db1, .clause _) =>
      queueA (removeLitQ p l cid w.1.2 (enqClause p (db1.clause cid).lits.length w.2 cid)) fun r => .ok (((db1, w.1.1.2), r.1), r.2)
    | some (db1, .registered _) => dropClauseA p (((db1, w.1.1.2), w.1.2), w.2) cid
    | some (db1, .unit l0) =>
      (dropClauseA p (((db1.log (.add [l0]), w.1.1.2), w.1.2), w.2) cid).bind fun u =>
        chk (u.1.1.2.okV l0.var)
          (match u.1.1.2.s.val l0 with
          | .none => (u.1.1.2.assignRootResQ u.1.1.1 l0).bind fun x => .ok ((x, u.1.2), u.2)
          | some true => .ok u
          | some false => .unsat u.1.1.1 u.1.1.2)
    | _ => .panic)

/-- src/processor/subsume.rs:15-48, 52-85 `try_subsume`, see `Splr.trySubsumeQ`. -/
def trySubsumeA (p : Lims) (w : EQ) (item : QItem) (did : Nat) : ResQ EQ :=
  match item with
  | .lit l =>
    chk (okCl w did)
      (if l.neg ∈ (w.1.1.1.clause did).lits then
        (strengthenA p w did l.neg).bind fun u => queueA (enqVar p u.1.2 u.2 l.var true) fun q => .ok (u.1, q)
      else .ok w)
  | .clause cid =>
    chk (okCl w cid && okCl w did)
      (if subsumes (w.1.1.1.clause cid).lits (w.1.1.1.clause did).lits then
        let db1 := if (w.1.1.1.clause did).learnt then w.1.1.1 else w.1.1.1.setC cid { w.1.1.1.clause cid with learnt := false }
        dropClauseA p (((db1, w.1.1.2), w.1.2), w.2) did
      else .ok w)

/-- src/processor/simplify.rs:440-474, see `bestVar`: the clause of the queue is looked at. -/
def itemC (w : EQ) : QItem → Bool
  | .lit l => w.1.1.2.okV l.var
  | .clause cid => okC w.1.1.1 cid && w.1.1.2.okLits (w.1.1.1.clause cid).lits

/-- src/processor/simplify.rs:477-494 the loop over the occurrence lists, see `scan`. -/
def scanA (p : Lims) (item : QItem) : List Nat → EQ → ResQ (EQ × Bool)
  | [], w => .ok (w, false)
  | did :: ds, w =>
    if item = .clause did then scanA p item ds w
    else
      chk (okC w.1.1.1 did)
        (if w.2.budget < (w.1.1.1.clause did).lits.length then .ok ((w.1, { w.2 with budget := 0 }), true)
        else
          let w1 : EQ := (w.1, { w.2 with budget := w.2.budget - (w.1.1.1.clause did).lits.length })
          if (w.1.1.1.clause did).dead = false ∧ (w.1.1.1.clause did).lits.length ≤ p.sub then
            (trySubsumeA p w1 item did).bind (scanA p item ds)
          else scanA p item ds w1)

/-- `propagate_sandbox`, see `Splr.propagateQ`. -/
def propagateA (w : EQ) : ResQ EQ := (PResQ.toRes (propagateSandboxQ w.1.1.1 w.1.1.2)).bind fun x => .ok ((x, w.1.2), w.2)

/-- `retain` on the occurrence lists of `v`, see `runCmd`; all the clauses in them are looked at. -/
def retainA (v : Nat) (sift : Bool) (w : EQ) : ResQ EQ :=
  chk ((w.1.2.pos v ++ w.1.2.neg v).all (okC w.1.1.1))
    (.ok ((w.1.1, w.1.2.keep v fun l c => if sift then decide (l ∈ (w.1.1.1.clause c).lits) else !(w.1.1.1.clause c).dead), w.2))

/-- src/processor/simplify.rs:414-505 `backward_subsumption_check`, see `bwdLoop`. -/
def bwdLoopA (p : Lims) : Nat → EQ → ResQ EQ
  | 0, _ => .fuel
  | n + 1, w =>
    match nextItem w.1.1.2.s.trail w.2 with
    | .none => if w.1.1.2.s.remains then propagateA w else .ok w
    | some (item, q1) =>
      if q1.budget = 0 then readA (w.1, q1) clearQueues
      else
        chk (itemC w item)
          (let b := bestVar p (view (w.1, q1)) item
          if b.1 = 0 then bwdLoopA p n (w.1, b.2)
          else if p.cnf + 1 < b.1 then .panic
          else
            (retainA b.1 false (w.1, b.2)).bind fun w1 =>
              (scanA p item (w1.1.2.pos b.1 ++ w1.1.2.neg b.1) w1).bind fun u =>
                if u.2 then .ok u.1 else (retainA b.1 false u.1).bind (bwdLoopA p n))

/-- `backward_subsumption_check`, see `backward`. -/
def backwardA (p : Lims) (w : EQ) : ResQ EQ := bwdLoopA p (bwdFuel (view w)) w

/-! ## elimination -/

/-- src/processor/eliminate.rs:60-103 one pair of clauses, see `Splr.resolveOneQ`. -/
def resolveOneA (p : Lims) (v i j : Nat) (w : EQ) : ResQ EQ :=
  let cp := w.1.1.1.clause i
  let cn := w.1.1.1.clause j
  chk (okCl w i && okCl w j)
    (match mergeLits v cp.lits cn.lits with
    | [] => .ok w
    | [l] =>
      match w.1.1.2.s.val l with
      | some true => .ok w
      | some false => .unsat w.1.1.1 w.1.1.2
      | .none => (w.1.1.2.assignRootResQ (w.1.1.1.log (.add [l])) l).bind fun x => .ok ((x, w.1.2), w.2)
    | vec =>
      chk (w.1.1.2.okRank vec)
        (match w.1.1.1.newClause w.1.1.2.s.level vec (cp.learnt && cn.learnt) with
        | .none => .panic
        | some (db1, .clause ci) =>
          chk (okCl (((db1, w.1.1.2), w.1.2), w.2) ci)
            (readA (((db1, w.1.1.2), w.1.2), { w.2 with flag := upd w.2.flag ci false }) fun z => addCidQ p z ci true)
        | some (db1, _) => .ok (((db1, w.1.1.2), w.1.2), w.2)))

/-- src/processor/eliminate.rs:56-107 the cross product, see `Splr.resolveAllQ`. -/
def resolveAllA (p : Lims) (v : Nat) : List (Nat × Nat) → EQ → ResQ EQ
  | [], w => .ok w
  | (i, j) :: ps, w => (resolveOneA p v i j w).bind (resolveAllA p v ps)

/-- src/processor/eliminate.rs:113-130, see `Splr.dropAllQ`. -/
def dropAllA (p : Lims) : List Nat → EQ → ResQ EQ
  | [], w => .ok w
  | cid :: cids, w =>
    chk (okC w.1.1.1 cid) (if (w.1.1.1.clause cid).dead then dropAllA p cids w else (dropClauseA p w cid).bind (dropAllA p cids))

/-- src/processor/eliminate.rs:10-136 `eliminate_var`, see `Splr.eliminateVarQ`. -/
def eliminateVarA (p : Lims) (skip : Nat → DS × El → Bool) (v : Nat) (w : EQ) : ResQ EQ :=
  if w.1.2.aborted v then .ok w
  else
    (retainA v true w).bind fun w1 =>
      let pos := w1.1.2.pos v
      let neg := w1.1.2.neg v
      if w1.2.budget < pos.length * neg.length ∨ skip v (view w1).1 = true then .ok w1
      else
        let e1 := { w1.1.2 with
          lits := w1.1.2.lits ++ elimClauses v (pos.map fun c => (w1.1.1.1.clause c).lits) (neg.map fun c => (w1.1.1.1.clause c).lits) }
        (resolveAllA p v (pos.flatMap fun i => neg.map fun j => (i, j))
          ((w1.1.1, e1), { w1.2 with budget := w1.2.budget - pos.length * neg.length })).bind fun u =>
          (dropAllA p (pos ++ neg) u).bind fun y =>
            lift (y.1.1.2.makeEliminatedQ v) fun x => backwardA p (((y.1.1.1, x), y.1.2.clearVar v), y.2)

/-- src/processor/simplify.rs:557-563 the inner loop of `eliminate_main`, see `varLoop`. -/
def varLoopA (p : Lims) (skip : Nat → DS × El → Bool) : Nat → EQ → ResQ EQ
  | 0, _ => .fuel
  | n + 1, w =>
    match w.2.vars.step w.1.2.worse (.pop w.1.1.2.s.elim) with
    | .none => .panic
    | some (.none, vq) => .ok (w.1, { w.2 with vars := vq })
    | some (some v, vq) =>
      let w1 : EQ := (w.1, { w.2 with vars := vq })
      chk (w.1.1.2.okV v)
        (if w.1.1.2.s.elim v = false ∧ w.1.1.2.s.assign v = none then (eliminateVarA p skip v w1).bind (varLoopA p skip n)
        else varLoopA p skip n w1)

/-- src/processor/simplify.rs:553-577 the loop of `eliminate_main`, see `mainLoop`. -/
def mainLoopA (p : Lims) (skip : Nat → DS × El → Bool) : Nat → EQ → ResQ EQ
  | 0, _ => .fuel
  | n + 1, w =>
    if w.2.bwd < w.1.1.2.s.trail.length ∨ w.2.vars.h.len ≠ 0 ∨ w.2.clauses ≠ [] then
      (if w.2.clauses ≠ [] ∨ w.2.bwd < w.1.1.2.s.trail.length then backwardA p w else .ok w).bind fun w1 =>
        (varLoopA p skip (varFuel p (view w1)) w1).bind fun w2 =>
          (backwardA p w2).bind fun w3 =>
            (propagateA w3).bind fun w4 =>
              if w4.2.budget = 0 then (readA w4 clearQueues).bind (mainLoopA p skip n)
              else mainLoopA p skip n (w4.1, { w4.2 with budget := w4.2.budget - 1 })
    else .ok w

/-- src/processor/simplify.rs:511-537 `eliminate`, see `elimLoop`. -/
def elimLoopA (p : Lims) (skip : Nat → DS × El → Bool) (budget : DS → Nat) (late : Nat → Bool) : Nat → Nat → EQ → ResQ EQ
  | 0, _, _ => .fuel
  | n + 1, k, w =>
    let w0 : EQ := (w.1, { w.2 with budget := budget (view w).1.1 })
    (mainLoopA p skip (mainFuel (view w0)) w0).bind fun w1 =>
      (propagateA w1).bind fun w2 =>
        if w2.1.1.2.s.trail.length = w.1.1.2.s.trail.length ∧ w2.2.clauses = [] ∧ w2.2.vars.h.len = 0 then .ok w2
        else if late k then readA w2 clearQueues
        else elimLoopA p skip budget late n (k + 1) w2

/-- `eliminate`, see `eliminateQ`. -/
def eliminateA (p : Lims) (skip : Nat → DS × El → Bool) (budget : DS → Nat) (late : Nat → Bool) (w : EQ) : ResQ EQ :=
  elimLoopA p skip budget late (w.1.1.2.s.numVars + 2) 0 w

/-! ## the callers -/

/-- src/processor/simplify.rs:222-249 `prepare(_, _, true)` of a fresh eliminator, see `prepareQ`; all clauses and all variables are looked at. -/
def prepareA (p : Lims) (flags : Nat → Bool) (y : DQ) : ResQ EQ :=
  chk (y.1.ids.all fun i => okC y.1 i && y.2.okLits (y.1.clause i).lits)
    (match prepareQ p flags (y.1, { y.2.s with heap := [] }) with
    | .ok (((db, _), e), q) => .ok (((db, y.2), e), q)
    | .unsat db _ => .unsat db y.2
    | .err => .err
    | .panic => .panic
    | .fuel => .fuel)

/-- src/processor/simplify.rs:260-306 `simplify(_, _, _, false)` of a prepared eliminator, enabled, see `Splr.simplifyQ`. -/
def simplifyA (p : Lims) (c : Ctl) (oom : Bool) (w : EQ) : ResQ (DQ × El) :=
  (eliminateA p c.skip c.budget c.late w).bind fun u => if oom then .err else .ok ((u.1.1.1.unlinkAll, u.1.1.2), u.1.2)

/-- src/solver/search.rs:93-121, see `Splr.pureLoopQ`. -/
def pureLoopA (p : Lims) (e : El) : Nat → Nat → DQ → Queues → ResQ (DQ × Queues)
  | 0, _, y, q => .ok (y, q)
  | n + 1, vi, y, q =>
    chk (y.2.okV vi)
      (if y.2.s.assign vi ≠ none then pureLoopA p e n (vi + 1) y q
      else if p.cnf + 1 < vi then .panic
      else if e.aborted vi then pureLoopA p e n (vi + 1) y q
      else
        (if e.neg vi = [] then y.2.assignRootResQ (y.1.log (.add [⟨vi, true⟩])) ⟨vi, true⟩
        else if e.pos vi = [] then y.2.assignRootResQ (y.1.log (.add [⟨vi, false⟩])) ⟨vi, false⟩
        else .ok y).bind fun y1 =>
          match enqVar p e q vi false with
          | .ok q1 => pureLoopA p e n (vi + 1) y1 q1
          | _ => .panic)

end QStk
end Splr
