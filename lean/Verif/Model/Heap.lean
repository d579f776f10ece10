/-!
# The two variable heaps: src/assign/heap.rs (decision queue) and src/processor/heap.rs (elimination queue)

Both files contain the same array heap, one ordered by `activity(u) < activity(v)`, the other by
`activity(u) > activity(v)`. The model takes the comparison as the parameter `lt u v` ("`u` is worse than `v`").
Vectors are a length and a total function; each vector access is guarded by the length, `none` is a panic
(index out of range, or unsigned underflow of the element counter). `u32` is modelled by `Nat`.
-/
namespace Splr.Heap

/-- Function update at one index (a vector write). -/
def set (f : Nat → Nat) (i x : Nat) : Nat → Nat := fun j => if j = i then x else f j

/-- src/assign/heap.rs:13-20 `struct VarIdHeap`; src/processor/heap.rs:58-61 `struct VarOccHeap`. Both vectors
have length `size`. -/
structure VarHeap where
  size : Nat
  heap : Nat → Nat
  idxs : Nat → Nat

/-- src/assign/heap.rs:34-45 `VarIdHeap::new` (`init = n`); src/processor/heap.rs:64-75 `VarOccHeap::new`. -/
def VarHeap.new (n init : Nat) : VarHeap :=
  { size := n + 1, heap := fun i => i, idxs := fun i => if i = 0 then init else i }

/-- `idxs[0]`, the number of queued elements: src/assign/heap.rs:199-201 `len`; src/processor/heap.rs:105. -/
def VarHeap.len (h : VarHeap) : Nat := h.idxs 0

/-- Vector read `heap[i]` (`none` = panic). -/
def VarHeap.heapAt (h : VarHeap) (i : Nat) : Option Nat := if i < h.size then some (h.heap i) else none

/-- Vector read `idxs[i]` (`none` = panic). -/
def VarHeap.idxAt (h : VarHeap) (i : Nat) : Option Nat := if i < h.size then some (h.idxs i) else none

/-- The pair of writes `heap[q] = v; idxs[v] = q` that every branch of the percolations ends with. -/
def VarHeap.put (h : VarHeap) (q v : Nat) : Option VarHeap :=
  if q < h.size ∧ v < h.size then some { h with heap := set h.heap q v, idxs := set h.idxs v q } else none

/-- src/assign/heap.rs:184-186 `contains`; src/processor/heap.rs:128-130. -/
def VarHeap.contains (h : VarHeap) (v : Nat) : Option Bool := do
  let i ← h.idxAt v
  let n ← h.idxAt 0
  pure (decide (i ≤ n))

/-- The loop of src/assign/heap.rs:97-120 and src/processor/heap.rs:163-186 (`percolate_up`), `vq` in hand.
`fuel` bounds the iterations; running out is reported as `none` and shown not to happen. -/
def percUpLoop (lt : Nat → Nat → Bool) : Nat → VarHeap → Nat → Nat → Option VarHeap
  | 0, _, _, _ => none
  | fuel + 1, h, q, vq =>
    let p := q / 2
    if p = 0 then h.put q vq
    else do
      let vp ← h.heapAt p
      if lt vp vq then do
        let h' ← h.put q vp
        percUpLoop lt fuel h' p vq
      else h.put q vq

/-- src/assign/heap.rs:92-121, src/processor/heap.rs:157-187 `percolate_up`. -/
def VarHeap.percUp (lt : Nat → Nat → Bool) (h : VarHeap) (start : Nat) : Option VarHeap := do
  let vq ← h.heapAt start
  percUpLoop lt (start + 1) h start vq

/-- The loop of src/assign/heap.rs:127-157 and src/processor/heap.rs:193-221 (`percolate_down`), `vi` in hand.
The bounds are `l < n` and `r < n` as in the source. -/
def percDownLoop (lt : Nat → Nat → Bool) (n : Nat) : Nat → VarHeap → Nat → Nat → Option VarHeap
  | 0, _, _, _ => none
  | fuel + 1, h, i, vi =>
    let l := 2 * i
    if l < n then do
      let vl ← h.heapAt l
      let r := l + 1
      let useR ← if r < n then do let vr ← h.heapAt r; pure (lt vl vr) else pure false
      let target := if useR then r else l
      let vc ← h.heapAt target
      if lt vi vc then do
        let h' ← h.put i vc
        percDownLoop lt n fuel h' target vi
      else h.put i vi
    else h.put i vi

/-- src/assign/heap.rs:122-158, src/processor/heap.rs:188-222 `percolate_down`. -/
def VarHeap.percDown (lt : Nat → Nat → Bool) (h : VarHeap) (start : Nat) : Option VarHeap := do
  let n ← h.idxAt 0
  let vi ← h.heapAt start
  percDownLoop lt n (n + 1) h start vi

/-- `heap.swap(i, j); idxs.swap(u, v)` with `idxs[0] := n` afterwards: the common part of `get_root`, `insert`
and `remove` (src/assign/heap.rs:194-196, 211-213, 226-228; src/processor/heap.rs:88-91, 147-149). -/
def VarHeap.swap (h : VarHeap) (i j u v n : Nat) : Option VarHeap :=
  if i < h.size ∧ j < h.size ∧ u < h.size ∧ v < h.size then
    some { h with heap := set (set h.heap i (h.heap j)) j (h.heap i),
                  idxs := set (set (set h.idxs u (h.idxs v)) v (h.idxs u)) 0 n }
  else none

/-- src/assign/heap.rs:203-214 `VarIdHeap::insert`: the position and the new heap. -/
def VarHeap.insertPos (h : VarHeap) (vi : Nat) : Option (Nat × VarHeap) := do
  if ← h.contains vi then
    let i ← h.idxAt vi
    pure (i, h)
  else
    let i ← h.idxAt vi
    let n := (← h.idxAt 0) + 1
    let vn ← h.heapAt n
    let h' ← h.swap i n vi vn n
    pure (n, h')

/-- src/assign/heap.rs:77-80 `insert_heap`. -/
def VarHeap.insertHeap (lt : Nat → Nat → Bool) (h : VarHeap) (vi : Nat) : Option VarHeap := do
  let (i, h) ← h.insertPos vi
  h.percUp lt i

/-- src/processor/heap.rs:78-98 `VarOccHeap::insert`. -/
def VarHeap.insertOcc (lt : Nat → Nat → Bool) (h : VarHeap) (vi : Nat) (upward : Bool) : Option VarHeap := do
  if ← h.contains vi then
    let i ← h.idxAt vi
    if upward then h.percUp lt i else h.percDown lt i
  else
    let (n, h) ← h.insertPos vi
    h.percUp lt n

/-- src/assign/heap.rs:70-76 `update_heap`. -/
def VarHeap.updateHeap (lt : Nat → Nat → Bool) (h : VarHeap) (v : Nat) : Option VarHeap := do
  let start ← h.idxAt v
  if ← h.contains v then h.percUp lt start else pure h

/-- src/assign/heap.rs:81-91 `get_heap_root` with 187-198 `get_root`. (Emptying the saved trail when the queue is
empty is part of the trail-saving model.) An empty queue underflows the counter: `none`. -/
def VarHeap.getRoot (lt : Nat → Nat → Bool) (h : VarHeap) : Option (Nat × VarHeap) := do
  let vs ← h.heapAt 1
  let n ← h.idxAt 0
  if n = 0 then none
  else
    let vn ← h.heapAt n
    let h ← h.swap n 1 vn vs (n - 1)
    if 1 < h.len then
      let h ← h.percDown lt 1
      pure (vs, h)
    else pure (vs, h)

/-- src/processor/heap.rs:137-156 `VarOccHeap::get_root`: 0 for an empty queue. -/
def VarHeap.getRootOcc (lt : Nat → Nat → Bool) (h : VarHeap) : Option (Nat × VarHeap) := do
  let vs ← h.heapAt 1
  let n ← h.idxAt 0
  if n = 0 then pure (0, h)
  else
    let vn ← h.heapAt n
    let h ← h.swap n 1 vn vs (n - 1)
    if 1 < h.len then
      let h ← h.percDown lt 1
      pure (vs, h)
    else pure (vs, h)

/-- src/assign/heap.rs:159-163 `remove_from_heap` with 218-233 `remove`. -/
def VarHeap.removeHeap (lt : Nat → Nat → Bool) (h : VarHeap) (vi : Nat) : Option VarHeap := do
  let i ← h.idxAt vi
  let n ← h.idxAt 0
  if n < i then pure h
  else
    let vn ← h.heapAt n
    if n = 0 then none
    else
      let h ← h.swap n i vn vi (n - 1)
      if 1 < h.len then h.percDown lt i else pure h

/-- src/assign/heap.rs:178-183 `clear`; src/processor/heap.rs:131-136 `reset`. -/
def VarHeap.clear (h : VarHeap) : VarHeap := { h with heap := fun i => i, idxs := fun i => i }

/-- src/assign/heap.rs:64-69 `expand_heap`: the counter `idxs[0]` is not changed. -/
def VarHeap.expand (h : VarHeap) : VarHeap :=
  { size := h.size + 1, heap := set h.heap h.size h.size, idxs := set h.idxs h.size h.size }

/-- The public operations on the decision queue. `act` = the activities at the time of the operation (they change
freely between operations). -/
inductive Op where
  | insert (v : Nat)
  | update (v : Nat)
  | remove (v : Nat)
  | root
  | clear
  | expand

/-- One operation under a comparison; the output of `root` is the returned variable. -/
def VarHeap.step (lt : Nat → Nat → Bool) (h : VarHeap) : Op → Option (Option Nat × VarHeap)
  | .insert v => (h.insertHeap lt v).map (none, ·)
  | .update v => (h.updateHeap lt v).map (none, ·)
  | .remove v => (h.removeHeap lt v).map (none, ·)
  | .root => (h.getRoot lt).map fun r => (some r.1, r.2)
  | .clear => some (none, h.clear)
  | .expand => some (none, h.expand)

/-- A history: each operation comes with the comparison valid at that time. Returns the heap and the outputs,
oldest first. -/
def VarHeap.run (h : VarHeap) : List ((Nat → Nat → Bool) × Op) → Option (VarHeap × List (Option Nat))
  | [] => some (h, [])
  | (lt, op) :: ops => do
    let (o, h) ← h.step lt op
    let (h, os) ← h.run ops
    pure (h, o :: os)

/-- src/assign/select.rs:136-143 `rebuild_order`: clear, then insert every variable for which `pick` (unassigned
and not eliminated) holds, in ascending order. -/
def VarHeap.rebuild (lt : Nat → Nat → Bool) (h : VarHeap) (pick : Nat → Bool) : Option VarHeap :=
  (List.range' 1 (h.size - 1)).foldlM (fun h vi => if pick vi then h.insertHeap lt vi else pure h) h.clear

end Splr.Heap
