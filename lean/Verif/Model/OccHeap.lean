import Verif.Model.Heap
/-!
# The queue of candidates for elimination: src/processor/heap.rs `VarOccHeap` with the flag ENQUEUED of the variables

The array heap itself is `Model/Heap.lean`. The flags live in the assignment stack, so they survive the eliminator, which is
created anew for each round (src/solver/search.rs:62, 346).
-/
namespace Splr.Heap

/-- The queue and the flag ENQUEUED of each variable. -/
structure OccQ where
  h : VarHeap
  enq : Nat → Bool

/-- src/processor/simplify.rs:186-200: the eliminator of a fresh solver with `n` variables. -/
def OccQ.new (n : Nat) : OccQ := { h := VarHeap.new n 0, enq := fun _ => false }

/-- src/processor/heap.rs:113-123 `select_var`; `elim`: the flag ELIMINATED. `none` = panic, or the bound `fuel` on the number of
iterations is hit. -/
def selectOcc (lt : Nat → Nat → Bool) (elim : Nat → Bool) : Nat → VarHeap → Option (Option Nat × VarHeap)
  | 0, _ => none
  | fuel + 1, h =>
    match h.getRootOcc lt with
    | none => none
    | some (v, h1) => if v = 0 then some (none, h1) else if elim v then selectOcc lt elim fuel h1 else some (some v, h1)

/-- The operations of the eliminator on its queue. -/
inductive OccOp where
  /-- `enqueue_var`; `few`: the variable has few enough occurrences -/
  | enqueue (v : Nat) (few upward : Bool)
  /-- one iteration of `while let Some(vi) = var_queue.select_var(..)` -/
  | pop (elim : Nat → Bool)
  /-- `clear_var_queue` -/
  | clear
  /-- a new eliminator for the same assignment stack -/
  | renew

/-- src/processor/simplify.rs:250-259 `enqueue_var` (of a running eliminator), 555-557 the selection of a variable,
src/processor/heap.rs:99-104 `clear` (the slice is `heap[0..n]`); src/processor/simplify.rs:191 for a new eliminator. `none` = panic. -/
def OccQ.step (lt : Nat → Nat → Bool) (q : OccQ) : OccOp → Option (Option Nat × OccQ)
  | .enqueue v few upward =>
    if !q.enq v && few then
      (q.h.insertOcc lt v upward).map fun h => (none, { h := h, enq := fun u => if u = v then true else q.enq u })
    else some (none, q)
  | .pop elim =>
    match selectOcc lt elim (q.h.len + 1) q.h with
    | none => none
    | some (none, h) => some (none, { q with h := h })
    | some (some v, h) => some (some v, { h := h, enq := fun u => if u = v then false else q.enq u })
  | .clear => some (none, { h := q.h.clear, enq := fun u => q.enq u && !(List.range q.h.len).any fun i => q.h.heap i == u })
  | .renew => some (none, { q with h := VarHeap.new (q.h.size - 1) 0 })

end Splr.Heap
