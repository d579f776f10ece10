import Verif.Spec.Sem
/-!
# Small pure pieces: `delete_unstable`, `OrderedProxy`, `check_size`, `update_lbd`, the literal scan of `propagate`
-/
namespace Splr

/-- `Vec::swap_remove(i)` (std): the last element takes the place of element `i`. Only called with `i < len`. -/
def swapRemove {α} (l : List α) (i : Nat) : List α :=
  match l.getLast? with
  | none => []
  | some x => (l.set i x).dropLast

/-- src/types/mod.rs:140-149 `delete_unstable`: `position(filter)` then `swap_remove`. -/
def deleteUnstable {α} (l : List α) (p : α → Bool) : List α :=
  match l.findIdx? p with
  | some i => swapRemove l i
  | none => l

namespace Proxy

/-- `f64` as far as `partial_cmp` is concerned: NaN, or a value of a linearly ordered set. -/
inductive F (α : Type) where
  | nan
  | val (x : α)
deriving DecidableEq

/-- `f64::partial_cmp`: `None` iff one operand is NaN. -/
def F.partialCmp {α} [Ord α] : F α → F α → Option Ordering
  | .val x, .val y => some (compare x y)
  | _, _ => none

/-- src/types/ordered_proxy.rs:4-8 `struct OrderedProxy`. -/
structure OrderedProxy (α β : Type) where
  index : F α
  body : β

def F.isNan {α} : F α → Bool
  | .nan => true
  | _ => false

/-- src/types/ordered_proxy.rs:33-46 `cmp`; `none` = the `unreachable!()` panic. -/
def OrderedProxy.cmp {α β} [Ord α] (a b : OrderedProxy α β) : Option Ordering :=
  match a.index.partialCmp b.index with
  | some o => some o
  | none =>
    match a.index.isNan, b.index.isNan with
    | true, true => some .eq
    | true, false => some .gt
    | false, true => some .lt
    | false, false => none

/-- src/types/ordered_proxy.rs:19-23 `eq` (`f64 ==` is false on NaN). -/
def OrderedProxy.eq {α β} [DecidableEq α] [DecidableEq β] (a b : OrderedProxy α β) : Bool :=
  (match a.index, b.index with
    | .val x, .val y => decide (x = y)
    | _, _ => false) && decide (a.body = b.body)

end Proxy

/-- src/cdb/db.rs:1141-1148 `check_size`: `none` = `Err(OutOfMemory)`. -/
def checkSize (softLimit numClause : Nat) : Option Bool :=
  if softLimit = 0 ∨ numClause ≤ softLimit then some (softLimit == 0 || decide (4 * numClause < 3 * softLimit))
  else none

namespace Lbd

/-- Write to the scratch vector `lbd_temp`. -/
def upd (t : Nat → Nat) (i x : Nat) : Nat → Nat := fun j => if j = i then x else t j

/-- The loop of src/types/clause.rs:314-325: `key`, then `(scratch, count)`. -/
def loop (key : Nat) : List Nat → (Nat → Nat) × Nat → (Nat → Nat) × Nat
  | [], st => st
  | lv :: ls, (t, cnt) =>
    if lv = 0 then loop key ls (t, cnt)
    else if t lv ≠ key then loop key ls (upd t lv key, cnt + 1)
    else loop key ls (t, cnt)

/-- src/types/clause.rs:307-328 `update_lbd`: the clause is given by the levels of its literals in order. Returns the
scratch vector and the rank. (`u16` rank: fewer than 8192 literals, so no overflow.) -/
def updateLbd (t : Nat → Nat) (levels : List Nat) : (Nat → Nat) × Nat :=
  if 8192 ≤ levels.length then (t, 65535)
  else
    let key := t 0 + 1
    loop key levels (upd t 0 key, 0)

/-- The other user of `lbd_temp`, src/cdb/db.rs:1167-1183: a new key, then writes of `key` or `key - 1` at variable
indices (never at index 0). -/
def scratch (t : Nat → Nat) (writes : List (Nat × Bool)) : Nat → Nat :=
  let key := t 0 + 1
  writes.foldl (fun t w => upd t w.1 (if w.2 then key else key - 1)) (upd t 0 key)

/-- One use of the scratch vector. -/
inductive Use where
  | lbd (levels : List Nat)
  | other (writes : List (Nat × Bool))

/-- src/cdb/db.rs:261 (`lbd_temp: vec![0; nv + 1]`) and the uses since. -/
def run : List Use → Nat → Nat
  | [] => fun _ => 0
  | .lbd ls :: us => (updateLbd (run us) ls).1
  | .other ws :: us => scratch (run us) ws

end Lbd

namespace Scan

/-- src/assign/propagate.rs:504-509 (and 684-689): the indices visited, `iter().enumerate().skip(start)` chained with
`iter().enumerate().skip(2).take(start - 2)`; `none` = unsigned underflow of `start - 2`. -/
def order (len start : Nat) : Option (List Nat) :=
  if start < 2 then none
  else some ((List.range len).drop start ++ ((List.range len).drop 2).take (start - 2))

/-- src/assign/propagate.rs:515 `(k + 1) as u16`. -/
def nextStart (k : Nat) : Nat := (k + 1) % 65536

/-- src/assign/propagate.rs:695 `(k as u16).saturating_add(1)`. -/
def nextStartSandbox (k : Nat) : Nat := min (k % 65536 + 1) 65535

end Scan
end Splr
