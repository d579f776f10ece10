import Verif.Model.Cdb
/-!
# Completion of binary clauses: src/cdb/db.rs:1189-1193, 1330-1351 (feature `bi_clause_completion`)
-/
namespace Splr

/-- src/cdb/db.rs:407-414: `new_clause` puts the literals of a learnt clause of two literals into the queue. The end of the list is
the end of the vector. -/
def completionQueue (q : List Lit) (c : Cls) : List Lit := c.foldl (fun q l => if l ∈ q then q else q ++ [l]) q

/-- src/cdb/db.rs:1336-1346: the clauses to be added for `lit`. -/
def Cdb.resolvents (db : Cdb) (lit : Lit) : List Cls :=
  (db.blist lit).flatMap fun e => (db.blist e.1.neg).filterMap fun f =>
    if lit.var ≠ f.1.var ∧ db.blSearch lit f.1 = none then some [lit, f.1] else none

/-- src/cdb/db.rs:1347-1350: the clauses are added, and `num_bi_clause_completion` is incremented for each. `none` = panic. -/
def addPairs (level : Nat → Nat) : List Cls → Cdb × Nat → Option (Cdb × Nat)
  | [], x => some x
  | c :: cs, (db, n) =>
    match db.newClause level c false with
    | none => none
    | some (db, _) => addPairs level cs (db, n + 1)

/-- src/cdb/db.rs:1335-1351 `complete_bi_clauses_with` -/
def completeWith (level : Nat → Nat) (lit : Lit) (x : Cdb × Nat) : Option (Cdb × Nat) := addPairs level (x.1.resolvents lit) x

/-- src/cdb/db.rs:1189-1193 `complete_bi_clauses`; `q` is the queue from its end (`pop`). The clauses added are not learnt ones, so that
nothing is put into the queue. -/
def completeAll (level : Nat → Nat) : List Lit → Cdb × Nat → Option (Cdb × Nat)
  | [], x => some x
  | l :: q, x =>
    match completeWith level l x with
    | none => none
    | some x => completeAll level q x

end Splr
