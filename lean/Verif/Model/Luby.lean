/-!
# src/types/luby.rs

`usize`/`isize` are unbounded here (the sequence number never comes near 2^64).
-/
namespace Splr.Luby

/-- src/types/luby.rs:3-9 `struct LubySeries`. -/
structure LubySeries where
  index : Nat
  seq : Int
  size : Nat
  maxValue : Nat
deriving DecidableEq, Repr

/-- src/types/luby.rs:11-20 `Default`. -/
def LubySeries.default : LubySeries := ⟨0, 0, 1, 1⟩

/-- src/types/luby.rs:61-66: the first loop. Arguments: target `index + 1`, the locals `seq`, `size` and
the two fields `self.seq`, `self.size`; result in the same order. -/
def grow (target : Nat) (seq : Int) (size : Nat) (fseq : Int) (fsize : Nat) : Int × Nat × Int × Nat :=
  if size < target then grow target (seq + 1) (2 * size + 1) seq size else (seq, size, fseq, fsize)
termination_by target - size

/-- src/types/luby.rs:67-72: the second loop, with a fuel argument; `none` when the fuel is exhausted or an
arithmetic operation of the loop would panic (`size - 1` underflow, `% 0`). -/
def shrink : Nat → Nat → Int → Nat → Option Int
  | 0, _, _, _ => none
  | fuel + 1, size, seq, index =>
    if size = 0 then none
    else if size - 1 = index then some seq
    else
      let size' := (size - 1) / 2
      if size' = 0 then none else shrink fuel size' (seq - 1) (index % size')

/-- src/types/luby.rs:57-78 `next_unchecked` (and 32-53 `next`, which is the same computation).
`none` models a panic (also for a negative exponent, which would be a huge `u32`). -/
def LubySeries.next (s : LubySeries) : Option (Nat × LubySeries) :=
  let index := s.index + 1
  let (seq, size, fseq, fsize) := grow (index + 1) s.seq s.size s.seq s.size
  match shrink (size + 1) size seq index with
  | none => none
  | some seq =>
    if seq < 0 then none
    else
      let val := 2 ^ seq.toNat
      some (val, { index := index, seq := fseq, size := fsize,
                   maxValue := if s.maxValue < val then val else s.maxValue })

/-- src/types/luby.rs:82-86 `reset` (`max_value` is kept). -/
def LubySeries.reset (s : LubySeries) : LubySeries := { s with index := 0, seq := 0, size := 1 }

/-- The operations a client can perform. -/
inductive Op | next | reset
deriving DecidableEq, Repr

/-- Run a history of operations; collects the produced values, newest last; `none` if one call panics. -/
def run : LubySeries → List Op → Option (List Nat × LubySeries)
  | s, [] => some ([], s)
  | s, .next :: ops =>
    match s.next with
    | none => none
    | some (v, s') => (run s' ops).map fun r => (v :: r.1, r.2)
  | s, .reset :: ops => run s.reset ops

end Splr.Luby
