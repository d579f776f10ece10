import Verif.Model.Cdb
/-!
# Histories of the clause database

One step is one call of an operation of `ClauseDBIF` that changes the database, with the arguments its callers may give
(the preconditions are the `debug_assert`s of the code, or what the callers establish).
-/
namespace Splr

/-- src/solver/… callers of src/cdb/db.rs: one mutating call. -/
inductive DbStep : Cdb → Cdb → Prop
  /-- `new_clause` with literals over distinct variables -/
  | new {db db' : Cdb} {r : RefClause} (level : Nat → Nat) (vec : Cls) (learnt : Bool) (hn : (vec.map Lit.var).Nodup)
      (e : db.newClause level vec learnt = some (db', r)) : DbStep db db'
  /-- `remove_clause` -/
  | remove {db db' : Cdb} (cid : Nat) (e : db.removeClause cid = some db') : DbStep db db'
  /-- `transform_by_elimination` of a literal of the clause -/
  | strengthen {db db' : Cdb} {r : RefClause} (cid : Nat) (p : Lit) (hp : p ∈ (db.clause cid).lits)
      (e : db.transformByElimination cid p = some (db', r)) : DbStep db db'
  /-- `transform_by_simplification` of a live clause -/
  | simplify {db db' : Cdb} {r : RefClause} (asg : Nat → Option Bool) (elim : Nat → Bool) (cid : Nat)
      (hl : (db.clause cid).lits ≠ []) (e : db.transformBySimplification asg elim cid = some (db', r)) : DbStep db db'
  /-- `swap_watch` of a live clause -/
  | swap {db : Cdb} (cid : Nat) (hl : (db.clause cid).lits ≠ []) : DbStep db (db.swapWatch cid)
  /-- `transform_by_restoring_watch_cache` -/
  | restore {db : Cdb} (l : Lit) (idx : Nat) (op : Option Lit) : DbStep db (db.restoreWatch l idx op)
  /-- `detach_watch_cache` and `transform_by_updating_watch`: entry `idx` of the list of `l` is about `cid`, whose literal
  at position `old` is `!l`; the watch moves to the literal at position `k` -/
  | move {db : Cdb} (l : Lit) (idx cid old k sf : Nat) (b lk other : Lit) (hi : (db.watch l)[idx]? = some (cid, b))
      (ho : old ≤ 1) (ha : (db.clause cid).lits[old]? = some l.neg) (hb : (db.clause cid).lits[1 - old]? = some other)
      (h2 : 2 ≤ k) (hk : (db.clause cid).lits[k]? = some lk) (hs : 2 ≤ sf) : DbStep db (db.moveWatch l idx cid old k sf)
  /-- `reduce` -/
  | reduce {db db' : Cdb} (level : Nat → Nat) (victims : List Nat) (e : db.reduce level victims = some db') : DbStep db db'

/-- Databases reachable from a fresh one. -/
inductive DbReach : Cdb → Prop
  | new : DbReach Cdb.new
  | step {db db' : Cdb} (h : DbReach db) (s : DbStep db db') : DbReach db'

end Splr
