import Verif.Model.Vivify
/-!
# The eliminator: src/processor/{simplify,subsume,eliminate}.rs, and `extend_model` of src/assign/stack.rs

The order in which clauses and variables are tried, and when to give up, are decided by queues, limits and clocks: the run of
the eliminator is a universally quantified list of commands (`ECmd`), each guarded by what the code checks before it acts.
The queues themselves are the subject of C42.
-/
namespace Splr

/-- src/processor/mod.rs:87-117 `struct Eliminator` and src/processor/heap.rs:19-23 `struct LitOccurs`: occurrence lists,
aborted variables, `elim_lits`. -/
structure El where
  pos : Nat → List Nat
  neg : Nat → List Nat
  aborted : Nat → Bool
  lits : List Lit

/-- src/processor/simplify.rs:186-200 `Eliminator::instantiate` -/
def El.new : El := { pos := fun _ => [], neg := fun _ => [], aborted := fun _ => false, lits := [] }

namespace El

/-- The occurrence list of a literal. -/
def occ (e : El) (l : Lit) : List Nat := if l.pos then e.pos l.var else e.neg l.var

/-- Write the occurrence list of a literal. -/
def setOcc (e : El) (l : Lit) (o : List Nat) : El :=
  if l.pos then { e with pos := upd e.pos l.var o } else { e with neg := upd e.neg l.var o }

/-- src/processor/simplify.rs:343-377: one literal of `add_cid_occur`; `evo` is `eliminate_var_occurrence_limit`. -/
def addLit (evo : Nat) (elim : Nat → Bool) (cid : Nat) (e : El) (l : Lit) : El :=
  if evo < (e.pos l.var).length * (e.neg l.var).length then { e with aborted := upd e.aborted l.var true }
  else if elim l.var then e
  else e.setOcc l (e.occ l ++ [cid])

/-- src/processor/simplify.rs:580-595 `remove_lit_occur` -/
def removeLit (e : El) (l : Lit) (cid : Nat) : El :=
  if e.aborted l.var then e else e.setOcc l (deleteUnstable (e.occ l) (· == cid))

/-- src/processor/simplify.rs:383-394 `remove_cid_occur` of a clause with the literals `c` (the flag: see `unlink`). -/
def removeCid (asg : Nat → Option Bool) (e : El) (cid : Nat) (c : Cls) : El :=
  c.foldl (fun e l => if (asg l.var).isNone then e.removeLit l cid else e) e

/-- `elim[vi].clear()` -/
def clearVar (e : El) (v : Nat) : El := { e with pos := upd e.pos v [], neg := upd e.neg v [], aborted := upd e.aborted v false }

/-- `pos_occurs.retain(..); neg_occurs.retain(..)` of the variable `v`; `p`: what is kept of the list of a literal. -/
def keep (e : El) (v : Nat) (p : Lit → Nat → Bool) : El :=
  { e with pos := upd e.pos v ((e.pos v).filter (p ⟨v, true⟩)), neg := upd e.neg v ((e.neg v).filter (p ⟨v, false⟩)) }

end El

/-- The flag OCCUR_LINKED of clause `cid`. -/
def Cdb.setLinked (db : Cdb) (cid : Nat) (b : Bool) : Cdb := db.setC cid { db.clause cid with occurLinked := b }

/-- src/processor/simplify.rs:325-381 `add_cid_occur`. -/
def addCid (evo : Nat) (x : DS) (e : El) (cid : Nat) : DS × El :=
  if (x.1.clause cid).occurLinked then (x, e)
  else ((x.1.setLinked cid true, x.2), (x.1.clause cid).lits.foldl (El.addLit evo x.2.elim cid) e)

/-- src/processor/simplify.rs:232-240 the loop of `prepare` over the clauses. A literal over a variable above `cnf` panics: the
variable queue has no place for it (src/processor/heap.rs:138, `contains`). -/
def linkLoop (evo cnf : Nat) : List Nat → DS × El → Res (DS × El)
  | [], y => .ok y
  | cid :: cids, y =>
    if (y.1.1.clause cid).dead || (y.1.1.clause cid).occurLinked then linkLoop evo cnf cids y
    else if (y.1.1.clause cid).lits.any (fun l => decide (cnf < l.var)) then .panic
    else linkLoop evo cnf cids (addCid evo y.1 y.2 cid)

/-- src/processor/simplify.rs:222-249 `prepare(_, _, true)` of a fresh eliminator. -/
def prepare (enable : Bool) (evo cnf : Nat) (x : DS) : Res (DS × El) :=
  if !enable then .ok (x, El.new)
  else
    (linkLoop evo cnf x.1.ids (x, El.new)).bind fun y =>
      if (List.range x.2.numVars).any (fun i => !x.2.elim (i + 1) && (x.2.assign (i + 1)).isNone && decide (cnf < i + 1))
      then .panic else .ok y

/-! ## subsumption -/

/-- `remove_cid_occur` and `remove_clause` of `cid`: src/processor/subsume.rs:33-34, 105-106, 111-112,
src/processor/eliminate.rs:119-130. -/
def dropClause (x : DS) (e : El) (cid : Nat) : Res (DS × El) :=
  let e1 := e.removeCid x.2.assign cid (x.1.clause cid).lits
  ((x.1.setLinked cid false).removeRes x.2 cid).bind fun y => .ok (y, e1)

/-- src/processor/subsume.rs:66-82: every literal of `c` is in `d`. -/
def subsumes (c d : Cls) : Bool := c.all (fun l => decide (l ∈ d))

/-- src/processor/subsume.rs:15-48 `try_subsume` of two clauses. -/
def trySubsume (x : DS) (e : El) (cid did : Nat) : Res (DS × El) :=
  if subsumes (x.1.clause cid).lits (x.1.clause did).lits then
    let db1 := if (x.1.clause did).learnt then x.1 else x.1.setC cid { x.1.clause cid with learnt := false }
    dropClause (db1, x.2) e did
  else .ok (x, e)

/-- src/processor/subsume.rs:88-123 `strengthen_clause`: drop the literal `l` from clause `cid`. -/
def strengthen (x : DS) (e : El) (cid : Nat) (l : Lit) : Res (DS × El) :=
  match x.1.transformByElimination cid l with
  | some (db1, .clause _) => .ok ((db1, x.2), e.removeLit l cid)
  | some (db1, .registered _) => dropClause (db1, x.2) e cid
  | some (db1, .unit l0) =>
    (dropClause (db1.log (.add [l0]), x.2) e cid).bind fun y =>
      match y.1.2.val l0 with
      | none => (y.1.2.assignRootRes y.1.1 l0).bind fun z => .ok (z, y.2)
      | some true => .ok y
      | some false => .unsat y.1.1 y.1.2
  | _ => .panic

/-- src/processor/subsume.rs:15-48 `try_subsume` with a lifted literal (a literal of the trail). -/
def tryLifted (x : DS) (e : El) (l : Lit) (did : Nat) : Res (DS × El) :=
  if l.neg ∈ (x.1.clause did).lits then strengthen x e did l.neg else .ok (x, e)

/-! ## elimination of a variable -/

/-- src/processor/eliminate.rs:227-262 `merge`: the resolvent of two clauses on `v`; `[]` if it is a tautology. -/
def mergeLits (v : Nat) (p q : Cls) : Cls :=
  let pb := if p.length < q.length then p else q
  let qb := if p.length < q.length then q else p
  if (pb.filter fun l => l.var ≠ v).any (fun l => decide (l.neg ∈ qb)) then []
  else (pb.filter fun l => decide (l.var ≠ v) && decide (l ∉ qb)) ++ qb.filter fun l => l.var ≠ v

/-- src/processor/eliminate.rs:60-103 one pair of clauses. -/
def resolveOne (evo v : Nat) (p n : Nat) (y : DS × El) : Res (DS × El) :=
  let cp := y.1.1.clause p
  let cn := y.1.1.clause n
  match mergeLits v cp.lits cn.lits with
  | [] => .ok y
  | [l] =>
    match y.1.2.val l with
    | some true => .ok y
    | some false => .unsat y.1.1 y.1.2
    | none => (y.1.2.assignRootRes (y.1.1.log (.add [l])) l).bind fun z => .ok (z, y.2)
  | vec =>
    match y.1.1.newClause y.1.2.level vec (cp.learnt && cn.learnt) with
    | none => .panic
    | some (db1, .clause ci) => .ok (addCid evo (db1, y.1.2) y.2 ci)
    | some (db1, _) => .ok ((db1, y.1.2), y.2)

/-- src/processor/eliminate.rs:56-107 the cross product. -/
def resolveAll (evo v : Nat) : List (Nat × Nat) → DS × El → Res (DS × El)
  | [], y => .ok y
  | (p, n) :: ps, y => (resolveOne evo v p n y).bind (resolveAll evo v ps)

/-- src/processor/eliminate.rs:113-130: the clauses of the variable are removed. -/
def dropAll : List Nat → DS × El → Res (DS × El)
  | [], y => .ok y
  | cid :: cids, y => if (y.1.1.clause cid).dead then dropAll cids y else (dropClause y.1 y.2 cid).bind (dropAll cids)

/-- src/types/lit.rs `From<usize> for Lit`: the literal with the ordinal `n`. -/
def Lit.ofOrd (n : Nat) : Lit := ⟨n / 2, decide (n % 2 = 1)⟩

/-- src/processor/eliminate.rs:293-319 `make_eliminated_clause`: the literals of the clause with the one of `v` in front, then
the number of literals. -/
def elimClause (v : Nat) (c : Cls) : List Lit :=
  c.foldl (fun acc l => if l.var = v then swapAt (acc ++ [l]) acc.length 0 else acc ++ [l]) [] ++ [Lit.ofOrd c.length]

/-- src/processor/eliminate.rs:264-292 `make_eliminated_clauses`, with the clauses of the two lists. -/
def elimClauses (v : Nat) (pos neg : List Cls) : List Lit :=
  if neg.length < pos.length then neg.flatMap (elimClause v) ++ [⟨v, true⟩, Lit.ofOrd 1]
  else pos.flatMap (elimClause v) ++ [⟨v, false⟩, Lit.ofOrd 1]

/-- src/processor/eliminate.rs:10-136 `eliminate_var` (once `skip_var_elimination` has accepted the variable). -/
def eliminateVar (evo v : Nat) (x : DS) (e : El) : Res (DS × El) :=
  let pos := (e.pos v).filter fun c => decide (⟨v, true⟩ ∈ (x.1.clause c).lits)
  let neg := (e.neg v).filter fun c => decide (⟨v, false⟩ ∈ (x.1.clause c).lits)
  let e1 := { e with pos := upd e.pos v pos, neg := upd e.neg v neg,
                     lits := e.lits ++ elimClauses v (pos.map fun c => (x.1.clause c).lits) (neg.map fun c => (x.1.clause c).lits) }
  (resolveAll evo v (pos.flatMap fun p => neg.map fun n => (p, n)) (x, e1)).bind fun y =>
    (dropAll (pos ++ neg) y).bind fun z => .ok ((z.1.1, z.1.2.makeEliminated v), z.2.clearVar v)

/-- One action of the eliminator. -/
inductive ECmd where
  /-- src/processor/simplify.rs:474-497: clause `cid` of the queue against the clause `did` of an occurrence list -/
  | subsume (cid did : Nat)
  /-- src/processor/simplify.rs:425-429, 474-497: a literal of the trail against a clause of an occurrence list -/
  | lifted (l : Lit) (did : Nat)
  /-- src/processor/simplify.rs:555-561 -/
  | elimVar (v : Nat)
  /-- src/processor/simplify.rs:498-502, 526, 566 -/
  | propagate
  /-- src/processor/simplify.rs:475-476, 495-496: dead clauses leave the occurrence lists of `v`; with `sift`,
  src/processor/eliminate.rs:27-32: clauses without the literal do -/
  | retain (v : Nat) (sift : Bool)

/-- One action, guarded by what the code checks. -/
def runCmd (evo : Nat) (y : DS × El) : ECmd → Res (DS × El)
  | .subsume cid did =>
    if cid = did ∨ (y.1.1.clause cid).dead = true ∨ (y.1.1.clause did).dead = true then .ok y else trySubsume y.1 y.2 cid did
  | .lifted l did => if l ∉ y.1.2.trail ∨ (y.1.1.clause did).dead = true then .ok y else tryLifted y.1 y.2 l did
  | .elimVar v =>
    if v = 0 ∨ y.1.2.numVars < v ∨ y.1.2.elim v = true ∨ y.1.2.assign v ≠ none ∨ y.2.aborted v = true then .ok y
    else eliminateVar evo v y.1 y.2
  | .propagate => (Stk.propagateSandbox y.1.1 y.1.2).toRes.bind fun z => .ok (z, y.2)
  | .retain v sift =>
    .ok (y.1, y.2.keep v fun l c => if sift then decide (l ∈ (y.1.1.clause c).lits) else !(y.1.1.clause c).dead)

/-- src/processor/simplify.rs:510-578 `eliminate` and `eliminate_main`. -/
def runCmds (evo : Nat) : List ECmd → DS × El → Res (DS × El)
  | [], y => .ok y
  | c :: cs, y => (runCmd evo y c).bind (runCmds evo cs)

/-- src/processor/simplify.rs:398-410 `stop`. -/
def Cdb.unlinkAll (db : Cdb) : Cdb := { db with clause := fun i => { db.clause i with occurLinked := false } }

/-- src/processor/simplify.rs:260-306 `simplify(_, _, _, false)` with the prepared eliminator; `oom`: the final `check_size`
fails. -/
def simplify (enable : Bool) (evo : Nat) (cmds : List ECmd) (oom : Bool) (y : DS × El) : Res (DS × El) :=
  if enable then
    (runCmds evo (cmds ++ [.propagate]) y).bind fun z => if oom then .err else .ok ((z.1.1.unlinkAll, z.1.2), z.2)
  else (Stk.propagateSandbox y.1.1 y.1.2).toRes.bind fun z => if oom then .err else .ok (z, y.2)

/-! ## models -/

/-- src/assign/stack.rs:295-321 the loop of `extend_model`, over the store in reverse order; `none` = index underflow. -/
def extendLoop : Nat → List Lit → (Nat → Option Bool) → Option (Nat → Option Bool)
  | _, [], m => some m
  | 0, _, _ => none
  | n + 1, w :: rest, m =>
    match (rest.take w.ord).reverse with
    | [] => none
    | t :: reasons =>
      if rest.length < w.ord then none
      else if reasons.all (fun l => m l.var == some !l.pos) then extendLoop n (rest.drop w.ord) (upd m t.var (some t.pos))
      else extendLoop n (rest.drop w.ord) m

/-- src/assign/stack.rs:278-323 `extend_model`. -/
def extendModel (store : List Lit) (m : Nat → Option Bool) : Option (Nat → Option Bool) :=
  extendLoop store.length store.reverse m

end Splr
