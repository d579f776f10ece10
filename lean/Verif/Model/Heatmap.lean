import Verif.Model.Cdb
import Mathlib.Data.Nat.Log
import Mathlib.Algebra.Field.Basic
/-!
# The table of clause ranks and uses of the progress report and of the answer file

src/cdb/db.rs:1302-1327 `clause_heatmap`. Simplified: the quotients are those of a field, without rounding.
-/
namespace Splr
namespace Heat

/-- src/cdb/db.rs:1310 `c.rank.min(7).saturating_sub(1)`: the row. -/
def row (rank : Nat) : Nat := min rank 7 - 1

/-- src/cdb/db.rs:1308 `c.used.saturating_add(1).ilog2().min(7)`: the column, `used` being a `u16`. -/
def col (used : Nat) : Nat := min (Nat.log 2 (min (used + 1) 65535)) 7

/-- src/cdb/db.rs:1309-1311 `*stats.entry(k).or_default() += 1` on the hash map as an association list. -/
def bump (k : Nat × Nat) : List ((Nat × Nat) × Nat) → List ((Nat × Nat) × Nat)
  | [] => [(k, 1)]
  | (k', n) :: m => if k' = k then (k', n + 1) :: m else (k', n) :: bump k m

/-- src/cdb/db.rs:1303-1313: the loop over the clauses, `(stats, nc)`. -/
def collect (db : Cdb) (used : Nat → Nat) : List ((Nat × Nat) × Nat) × Nat :=
  (List.range db.len).foldl (fun h i => if (db.clause i).lits = [] then h else (bump (row (db.clause i).rank, col (used i)) h.1, h.2 + 1)) ([], 0)

/-- src/cdb/db.rs:1319 `stats.get(&k)`. -/
def get (m : List ((Nat × Nat) × Nat)) (k : Nat × Nat) : Option Nat := m.lookup k

variable {K : Type} [Field K]

/-- src/cdb/db.rs:1316-1325: row `i` of the result: its heading, and the eight cells. -/
def rowOf (m : List ((Nat × Nat) × Nat)) (total nc : Nat) (i : Nat) : K × List K :=
  let subtotal := (List.range 8).foldl (fun s j => s + (get m (i, j)).getD 0) 0
  ((subtotal : K) / (nc : K), (List.range 8).map fun j => match get m (i, j) with
    | some k => (k : K) / (total : K)
    | none => 0)

/-- src/cdb/db.rs:1302-1327 `clause_heatmap`. -/
def heatmap (db : Cdb) (used : Nat → Nat) : List (K × List K) :=
  let h := collect db used
  (List.range 7).map (rowOf h.1 (h.1.map Prod.snd).sum h.2)

/-- src/bin/splr.rs:388-402: the label of row `i`. -/
def label (i : Nat) : String := if i = 6 then "LBD>" ++ toString i else "LBD " ++ toString (i + 1)

end Heat
end Splr
