import Verif.Spec.Drat
import Verif.Model.Misc
import Mathlib.Data.List.Dedup
/-!
# The clause database: src/cdb/db.rs, src/cdb/binary.rs, src/cdb/watch_cache.rs

Vectors indexed by a literal, a variable or a clause id are total functions (plus the length for `clause`), so
out-of-range indices are not modelled here. `usize` counters that the code decrements are integers.
A clause id is a natural number. The rank of a clause is given by its specification (C32 proves that `update_lbd`
computes it). Fields that only feed heuristics (`used`, `timestamp`, EMAs) are left out.
Feature flags are the defaults: no `clause_rewarding`, `bi_clause_completion`, `maintain_watch_cache`, `just_used`.
-/
namespace Splr

/-- Function update (a vector or hash-map write). -/
def upd {α β : Type} [DecidableEq α] (f : α → β) (a : α) (b : β) : α → β := fun x => if x = a then b else f x

/-- src/types/lit.rs:11-19: the order of literals is that of their ordinals. -/
def Lit.ord (l : Lit) : Nat := 2 * l.var + (if l.pos then 1 else 0)

/-- src/types/clause.rs:62-90 `struct Clause` (the fields used by the logic). -/
structure Cl where
  lits : Cls
  learnt : Bool := false
  searchFrom : Nat := 2
  rank : Nat := 0
  occurLinked : Bool := false
  enqueued : Bool := false
deriving DecidableEq, Repr

/-- src/types/clause.rs:102-115 `Clause::default`, also a deleted clause. -/
def Cl.none : Cl := { lits := [] }

/-- src/types/clause.rs:47,157 `is_dead`: `lits.is_empty()`. -/
def Cl.dead (c : Cl) : Bool := c.lits.isEmpty

/-- src/cdb/db.rs:25-94 `struct ClauseDB`; `free` has the top of the stack first. -/
structure Cdb where
  clause : Nat → Cl
  len : Nat
  free : List Nat
  watch : Lit → List (Nat × Lit)
  blist : Lit → List (Lit × Nat)
  bhash : Lit × Lit → Option Nat
  cert : List CertRec
  numClause : Int
  numBiClause : Int
  numBiLearnt : Int
  numLbd2 : Int
  numLearnt : Int

/-- src/cdb/db.rs:243-270 `instantiate`: one dummy clause at index 0. -/
def Cdb.new : Cdb :=
  { clause := fun _ => Cl.none, len := 1, free := [], watch := fun _ => [], blist := fun _ => [],
    bhash := fun _ => none, cert := [], numClause := 0, numBiClause := 0, numBiLearnt := 0, numLbd2 := 0, numLearnt := 0 }

/-- src/types/clause.rs:333-340 `enum RefClause`. -/
inductive RefClause where
  | clause (cid : Nat)
  | dead
  | emptyClause
  | registered (cid : Nat)
  | unit (l : Lit)
deriving DecidableEq, Repr

/-! ## watch lists -/

/-- src/cdb/watch_cache.rs:24-28 `remove_watch`. -/
def removeWatch (w : List (Nat × Lit)) (cid : Nat) : List (Nat × Lit) := deleteUnstable w (fun e => e.1 == cid)

/-- src/cdb/watch_cache.rs:29-32 `insert_watch`. -/
def insertWatch (w : List (Nat × Lit)) (cid : Nat) (l : Lit) : List (Nat × Lit) := w ++ [(cid, l)]

/-- src/cdb/watch_cache.rs:36-43 `update_watch`: the first entry of `cid` gets the literal `l`. -/
def updateWatch : List (Nat × Lit) → Nat → Lit → List (Nat × Lit)
  | [], _, _ => []
  | e :: w, cid, l => if e.1 = cid then (e.1, l) :: w else e :: updateWatch w cid l

/-- `watch_cache[l].remove_watch(&cid)` -/
def Cdb.rmW (db : Cdb) (l : Lit) (cid : Nat) : Cdb := { db with watch := upd db.watch l (removeWatch (db.watch l) cid) }

/-- `watch_cache[l].insert_watch(cid, b)` -/
def Cdb.insW (db : Cdb) (l : Lit) (cid : Nat) (b : Lit) : Cdb :=
  { db with watch := upd db.watch l (insertWatch (db.watch l) cid b) }

/-- `watch_cache[l].update_watch(cid, b)` -/
def Cdb.updW (db : Cdb) (l : Lit) (cid : Nat) (b : Lit) : Cdb :=
  { db with watch := upd db.watch l (updateWatch (db.watch l) cid b) }

/-! ## binary links -/

/-- src/cdb/binary.rs:72-73: the hash key of a pair. -/
def bkey (a b : Lit) : Lit × Lit := if a.ord ≤ b.ord then (a, b) else (b, a)

/-- src/cdb/binary.rs:71-77 `add`. -/
def Cdb.blAdd (db : Cdb) (a b : Lit) (cid : Nat) : Cdb :=
  let h := upd db.bhash (bkey a b) (some cid)
  let l1 := upd db.blist a (db.blist a ++ [(b, cid)])
  { db with bhash := h, blist := upd l1 b (l1 b ++ [(a, cid)]) }

/-- src/cdb/binary.rs:78-85 `remove`. -/
def Cdb.blRemove (db : Cdb) (a b : Lit) : Cdb :=
  let h := upd db.bhash (bkey a b) none
  let l1 := upd db.blist a (deleteUnstable (db.blist a) (fun e => e.1 == b))
  { db with bhash := h, blist := upd l1 b (deleteUnstable (l1 b) (fun e => e.1 == a)) }

/-- src/cdb/binary.rs:86-90 `search`; src/cdb/db.rs:1379-1381 `link_to_cid`. -/
def Cdb.blSearch (db : Cdb) (a b : Lit) : Option Nat := db.bhash (bkey a b)

/-! ## clauses -/

/-- (specification of the rank, see C32) the number of distinct non-zero levels, 65535 for 8192 or more literals:
src/types/clause.rs:307-328 `update_lbd`. -/
def lbdOf (level : Nat → Nat) (c : Cls) : Nat :=
  if 8192 ≤ c.length then 65535
  else (((c.map fun l => level l.var).filter (· ≠ 0)).dedup).length

/-- `self.clause[cid] = c` -/
def Cdb.setC (db : Cdb) (cid : Nat) (c : Cl) : Cdb := { db with clause := upd db.clause cid c }

/-- `certification_store.add_clause` / `delete_clause`. Simplification: records are kept also when no certificate file
was asked for (`is_active()` false); nothing reads them back in the solver. -/
def Cdb.log (db : Cdb) (r : CertRec) : Cdb := { db with cert := db.cert ++ [r] }

/-- src/cdb/db.rs:344-380 the allocation of a clause id: reuse one from the freelist or append. -/
def Cdb.alloc (db : Cdb) (c : Cl) : Cdb × Nat :=
  match db.free with
  | cid :: fr => ({ db with free := fr, clause := upd db.clause cid c }, cid)
  | [] => ({ db with clause := upd db.clause db.len c, len := db.len + 1 }, db.len)

/-- src/cdb/db.rs:426-440 the registration of a new clause in the link lists. -/
def Cdb.attach (db : Cdb) (cid : Nat) (l0 l1 : Lit) (len2 : Bool) : Cdb :=
  if len2 then { db.blAdd l0 l1 cid with numBiClause := db.numBiClause + 1 }
  else (db.insW l0.neg cid l1).insW l1.neg cid l0

/-- src/cdb/db.rs:326-441 `new_clause`; `none` = panic (fewer than two literals). -/
def Cdb.newClause (db : Cdb) (level : Nat → Nat) (vec : Cls) (learnt : Bool) : Option (Cdb × RefClause) :=
  match vec with
  | l0 :: l1 :: tl =>
    match (if tl = [] then db.blSearch l0 l1 else none) with
    | some cid => some (db, .registered cid)
    | none =>
      let db := db.log (.add vec)
      let len2 := tl.isEmpty
      let rank := if len2 then 1 else lbdOf level vec
      let (db, cid) := db.alloc { lits := vec, learnt := learnt && !len2, rank := rank }
      let db := { db with numClause := db.numClause + 1
                          numBiLearnt := if learnt && len2 then db.numBiLearnt + 1 else db.numBiLearnt
                          numLearnt := if learnt && !len2 then db.numLearnt + 1 else db.numLearnt
                          numLbd2 := if learnt && !len2 && decide (rank ≤ 2) then db.numLbd2 + 1 else db.numLbd2 }
      some (db.attach cid l0 l1 len2, .clause cid)
  | _ => none

/-- src/cdb/db.rs:1385-1414 `remove_clause_fn` and 504-523 `remove_clause`; `none` = panic (`lits[0]` or `lits[1]` of a
clause with fewer than two literals, in particular of a dead clause). -/
def Cdb.removeClause (db : Cdb) (cid : Nat) : Option Cdb :=
  match (db.clause cid).lits with
  | l0 :: l1 :: tl =>
    let db1 := if tl.isEmpty then { db.blRemove l0 l1 with numBiClause := db.numBiClause - 1 }
               else (db.rmW l0.neg cid).rmW l1.neg cid
    let db2 := { db1 with numLearnt := if (db.clause cid).learnt then db1.numLearnt - 1 else db1.numLearnt
                          numClause := db1.numClause - 1 }
    let db3 := (db2.log (.del (l0 :: l1 :: tl))).setC cid { db.clause cid with lits := [] }
    some { db3 with free := cid :: db3.free }
  | _ => none

/-- src/cdb/db.rs:633-690 (Case:3-3 of `transform_by_elimination`): move the watch of `cid` when `p`, the literal being
dropped, is one of the watched literals `o0`, `o1`; `n0`, `n1` are the first literals of the shortened clause.
`none` = `unreachable!`. -/
def Cdb.rewatchElim (db : Cdb) (cid : Nat) (p o0 o1 n0 n1 : Lit) : Option Cdb :=
  if p = o0 then
    if o1 = n0 then some ((db.rmW p.neg cid).insW n1.neg cid n0)
    else if o1 = n1 then some ((db.rmW p.neg cid).insW n0.neg cid n1)
    else none
  else if p = o1 then
    if o0 = n0 then some ((db.rmW p.neg cid).insW n1.neg cid n0)
    else if o0 = n1 then some ((db.rmW p.neg cid).insW n0.neg cid n1)
    else none
  else some db

/-- src/cdb/db.rs:567-709 `transform_by_elimination`: drop the literal `p` from clause `cid`; `none` = panic. -/
def Cdb.transformByElimination (db : Cdb) (cid : Nat) (p : Lit) : Option (Cdb × RefClause) :=
  match (db.clause cid).lits with
  | [o0, o1] =>                                         -- Case:2-0
    if o0 = p then some (db.setC cid { db.clause cid with lits := [o1, o0] }, .unit o1)
    else some (db.setC cid { db.clause cid with lits := [o0, o1] }, .unit o0)
  | o0 :: o1 :: tl =>
    match (o0 :: o1 :: tl).filter (· ≠ p) with
    | [n0, n1] =>
      match db.blSearch n0 n1 with
      | some reg => some (db.setC cid { db.clause cid with searchFrom := 2 }, .registered reg)        -- Case:3-0
      | none =>                                         -- Case:3-2
        let db1 := ((db.rmW o0.neg cid).rmW o1.neg cid).blAdd n0 n1 cid
        let db2 := db1.setC cid { db.clause cid with lits := [n0, n1], searchFrom := 2 }
        let db3 := { db2 with numBiClause := db.numBiClause + 1 }
        some ((db3.log (.add [n0, n1])).log (.del (o0 :: o1 :: tl)), .clause cid)
    | n0 :: n1 :: nt =>                                 -- Case:3-3
      match db.rewatchElim cid p o0 o1 n0 n1 with
      | none => none
      | some db1 =>
        let db2 := db1.setC cid { db.clause cid with lits := n0 :: n1 :: nt, searchFrom := 2 }
        some ((db2.log (.add (n0 :: n1 :: nt))).log (.del (o0 :: o1 :: tl)), .clause cid)
    | _ => none
  | _ => none

/-- src/cdb/db.rs:914-940 (Case:3-3 of `transform_by_simplification`): move the watches of `cid` from `o0`, `o1` to
`n0`, `n1`. -/
def Cdb.rewatch (db : Cdb) (cid : Nat) (o0 o1 n0 n1 : Lit) : Cdb :=
  if o0 = n0 ∧ o1 = n1 then db
  else if o0 = n0 then ((db.rmW o1.neg cid).updW n0.neg cid n1).insW n1.neg cid n0
  else if o0 = n1 then ((db.rmW o1.neg cid).insW n0.neg cid n1).updW n1.neg cid n0
  else if o1 = n0 then ((db.rmW o0.neg cid).updW n0.neg cid n1).insW n1.neg cid n0
  else if o1 = n1 then ((db.rmW o0.neg cid).insW n0.neg cid n1).updW n1.neg cid n0
  else (((db.rmW o0.neg cid).rmW o1.neg cid).insW n0.neg cid n1).insW n1.neg cid n0

/-- The value of a literal under a partial assignment: src/assign/stack.rs:447-452 `assigned`. -/
def litVal (asg : Nat → Option Bool) (l : Lit) : Option Bool := (asg l.var).map (· == l.pos)

/-- src/cdb/db.rs:817-959 `transform_by_simplification`, called at the root level with the root assignment `asg`;
`elim v` is the flag ELIMINATED. `none` = panic. -/
def Cdb.transformBySimplification (db : Cdb) (asg : Nat → Option Bool) (elim : Nat → Bool) (cid : Nat) :
    Option (Cdb × RefClause) :=
  if (db.clause cid).lits.any (fun l => litVal asg l == some true) then
    (db.removeClause cid).map (·, .dead)
  else if (db.clause cid).lits.all (fun l => litVal asg l == none && !elim l.var) then some (db, .clause cid)
  else
    match (db.clause cid).lits.filter (fun l => litVal asg l == none && !elim l.var), (db.clause cid).lits with
    | [], _ => some (db, .emptyClause)
    | [l], _ => some (db, .unit l)
    | [l0, l1], o0 :: o1 :: _ =>
      match db.blSearch l0 l1 with
      | some bid => (db.removeClause cid).map (·, .registered bid)
      | none =>
        let db1 := ((db.rmW o0.neg cid).rmW o1.neg cid).blAdd l0 l1 cid
        let db2 := db1.setC cid { db.clause cid with lits := [l0, l1], learnt := false }
        let db3 := { db2 with numBiClause := db.numBiClause + 1
                              numLearnt := if (db.clause cid).learnt then db.numLearnt - 1 else db.numLearnt }
        some ((db3.log (.add [l0, l1])).log (.del (db.clause cid).lits), .clause cid)
    | n0 :: n1 :: nt, o0 :: o1 :: _ =>
      let db1 := (db.rewatch cid o0 o1 n0 n1).setC cid { db.clause cid with lits := n0 :: n1 :: nt }
      some ((db1.log (.add (n0 :: n1 :: nt))).log (.del (db.clause cid).lits), .clause cid)
    | _, _ => none

/-- `slice::swap(i, j)` (both in range) -/
def swapAt (l : Cls) (i j : Nat) : Cls :=
  match l[i]?, l[j]? with
  | some a, some b => (l.set i b).set j a
  | _, _ => l

/-- src/cdb/db.rs:323-325 `swap_watch`. -/
def Cdb.swapWatch (db : Cdb) (cid : Nat) : Cdb :=
  db.setC cid { db.clause cid with lits := swapAt (db.clause cid).lits 0 1 }

/-- src/cdb/db.rs:547-566 `transform_by_restoring_watch_cache`: replace the cached literal of entry `idx` (if given). -/
def Cdb.restoreWatch (db : Cdb) (l : Lit) (idx : Nat) (op : Option Lit) : Cdb :=
  match op with
  | none => db
  | some b => { db with watch := upd db.watch l ((db.watch l).modify idx fun e => (e.1, b)) }

/-- src/cdb/db.rs:313-316 `detach_watch_cache`, then 961-1012 `transform_by_updating_watch(cid, old, new, true)`, then the
update of `search_from` (src/assign/propagate.rs:513-515, 693-695): the watch of `cid` at position `old` moves to the
literal at position `k`; entry `idx` of `watch[l]` is dropped. -/
def Cdb.moveWatch (db : Cdb) (l : Lit) (idx : Nat) (cid : Nat) (old k : Nat) (sf : Nat) : Cdb :=
  let c := db.clause cid
  match c.lits[k]?, c.lits[1 - old]? with
  | some lk, some other =>
    let db := { db with watch := upd db.watch l (swapRemove (db.watch l) idx) }
    let db := db.insW lk.neg cid other
    db.setC cid { c with lits := swapAt c.lits old k, searchFrom := sf }
  | _, _ => db

/-- src/cdb/db.rs:1031-1114 `reduce`: recompute the ranks, collect the LEARNT clauses of rank above 4, and delete some of
them. Which ones is decided by activities; `victims` stands for the tail of the sorted vector `perm` (a list of indices
without repetition). `none` = panic. -/
def Cdb.rerank (db : Cdb) (level : Nat → Nat) : Cdb :=
  { db with clause := fun i => if (db.clause i).dead then db.clause i
                                else { db.clause i with rank := lbdOf level (db.clause i).lits } }

/-- The clauses `reduce` may delete: src/cdb/db.rs:1044-1075. -/
def Cdb.reducible (db : Cdb) (i : Nat) : Bool :=
  decide (0 < i) && decide (i < db.len) && !(db.clause i).dead && (db.clause i).learnt && decide (4 < (db.clause i).rank)

/-- src/cdb/db.rs:1031-1114 `reduce`, see `rerank`. -/
def Cdb.reduce (db : Cdb) (level : Nat → Nat) (victims : List Nat) : Option Cdb :=
  let db := db.rerank level
  (victims.filter db.reducible).dedup.foldlM Cdb.removeClause db

/-- src/cdb/db.rs:1149-1161 `validate` and 1420-1432 `Clause::evaluate`: the first clause that is not satisfied. -/
def evalClause (model : Nat → Option Bool) (c : Cls) : Option Bool :=
  if c.any (fun l => litVal model l == some true) then some true
  else if c.any (fun l => litVal model l == none) then none
  else some false

/-- src/cdb/db.rs:1149-1161 `validate`. -/
def Cdb.validate (db : Cdb) (model : Nat → Option Bool) (strict : Bool) : Option Nat :=
  (List.range db.len).find? fun i =>
    decide (0 < i) && !(db.clause i).dead && !(strict && (db.clause i).learnt) &&
      match evalClause model (db.clause i).lits with
      | some false => true
      | none => strict
      | some true => false

end Splr
