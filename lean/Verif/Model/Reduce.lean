import Verif.Model.Cdb
import Mathlib.Data.List.Sort
/-!
# The clause deletion policy

`Cdb.reduce` (Model/Cdb.lean) deletes the clauses an oracle names. Here is what the code does to choose them
(src/cdb/db.rs:1031-1114): collect the candidates in the order of the clause vector with a key, sort them, keep a prefix,
delete the rest.

`K` stands for the keys (`f64` compared by `OrderedProxy::cmp`, src/types/ordered_proxy.rs:33-46: a linear order with NaN on
top).
-/
namespace Splr

/-- src/cdb/mod.rs `ReductionType`; the second argument of the `…ALL` variants is the exponent of
`perm.len().powf(1.0 - scale) as usize`; here it is that function of the number of candidates. -/
inductive ReductionType (K : Type)
  | rasOnAdd (size : Nat)
  | rasOnAll (cutoff : K) (keep : Nat → Nat)
  | lbdOnAdd (size : Nat)
  | lbdOnAll (cutoff : Nat) (keep : Nat → Nat)

/-- src/cdb/db.rs:1432-1437 `reverse_activity_sum`, `lbd`: what a run of `reduce` computes from the activities of the
variables (`ras`, any function of the literals) and how a rank is compared with it (`ofRank`, the conversion `as f64`). -/
structure Keys (K : Type) where
  ras : Cls → K
  ofRank : Nat → K

variable {K : Type} [LinearOrder K]

/-- src/cdb/db.rs:1075-1096, the key of a candidate. -/
def reduceKey (k : Keys K) (t : ReductionType K) (c : Cl) : K :=
  match t with
  | .rasOnAdd _ => k.ras c.lits
  | .rasOnAll _ _ => k.ras c.lits
  | .lbdOnAdd _ => k.ofRank c.rank
  | .lbdOnAll _ _ => k.ofRank c.rank

/-- src/cdb/db.rs:1075-1096, the test of the `…ALL` variants. -/
def reduceCut (k : Keys K) (t : ReductionType K) (c : Cl) : Bool :=
  match t with
  | .rasOnAdd _ => true
  | .rasOnAll cutoff _ => decide (cutoff < min (k.ras c.lits) (k.ofRank c.rank))
  | .lbdOnAdd _ => true
  | .lbdOnAll cutoff _ => decide (cutoff < c.rank)

/-- src/cdb/db.rs:1097-1102 `keep`. -/
def reduceKeep (t : ReductionType K) (n : Nat) : Nat :=
  match t with
  | .rasOnAdd size => n - size
  | .rasOnAll _ keep => keep n
  | .lbdOnAdd size => n - size
  | .lbdOnAll _ keep => keep n

/-- src/cdb/db.rs:1044-1096, the vector `perm` before sorting: the clause ids in increasing order. -/
def Cdb.reducePerm (db : Cdb) (k : Keys K) (t : ReductionType K) : List Nat :=
  (List.range db.len).filter fun i => db.reducible i && reduceCut k t (db.clause i)

/-- src/cdb/db.rs:1111 `perm.sort()`: a stable sort by the key. -/
def Cdb.reduceSort (db : Cdb) (k : Keys K) (t : ReductionType K) (perm : List Nat) : List Nat :=
  perm.insertionSort fun i j => reduceKey k t (db.clause i) ≤ reduceKey k t (db.clause j)

/-- src/cdb/db.rs:1031-1114 `reduce`. `none` = panic. Not modelled: the statistics `num_reduction`, `reduction_threshold`. -/
def Cdb.reduceBy (db : Cdb) (level : Nat → Nat) (k : Keys K) (t : ReductionType K) : Option Cdb :=
  let db := db.rerank level
  let perm := db.reducePerm k t
  ((db.reduceSort k t perm).drop (reduceKeep t perm.length)).foldlM Cdb.removeClause db

end Splr
