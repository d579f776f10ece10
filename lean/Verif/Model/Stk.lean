import Verif.Model.Cdb
/-!
# The assignment stack: src/assign/stack.rs, src/assign/propagate.rs, src/assign/trail_saving.rs

Vectors indexed by variables are total functions. The decision heap is the list of its members (C12 proves that the array
heap behaves as this set); which member `get_root` returns depends on activities and is a universally quantified argument
(`pick`). Rewards, EMAs, best phases and statistics are left out; the sign of a decision is a universally quantified argument
(the flag PHASE only selects it). `root_level` is the constant 0 of the code. Feature flags are the defaults: `trail_saving`
on, `chrono_BT` off.
-/
namespace Splr

/-- src/assign/mod.rs:87-97 `enum AssignReason`. -/
inductive Reason where
  | none
  | decision (lv : Nat)
  | binary (l : Lit)
  | impl (cid : Nat)
deriving DecidableEq, Repr

/-- src/assign/stack.rs:23-100 `struct AssignStack` and src/types/var.rs `struct Var`. `trail` has the oldest literal first,
`saved` is the saved trail in the order in which it is reused (`trail_saved` reversed). -/
structure Stk where
  assign : Nat → Option Bool
  level : Nat → Nat
  reason : Nat → Reason
  trail : List Lit
  lim : List Nat
  qhead : Nat
  saved : List Lit
  reasonSaved : Nat → Reason
  elim : Nat → Bool
  heap : List Nat
  numVars : Nat
  numAsserted : Nat
  numElim : Nat

namespace Stk

/-- src/assign/stack.rs:173-201 `instantiate`, src/assign/heap.rs:34-46: all variables are in the heap; src/types/var.rs:61-71
`new_vars`: the level of an unassigned variable is at first its index (a variable added later has level 0, 33-52). -/
def new (nv : Nat) : Stk :=
  { assign := fun _ => .none, level := fun v => if v ≤ nv then v else 0, reason := fun _ => .none, trail := [], lim := [], qhead := 0,
    saved := [], reasonSaved := fun _ => .none, elim := fun _ => false, heap := (List.range nv).map (· + 1),
    numVars := nv, numAsserted := 0, numElim := 0 }

/-- src/assign/stack.rs:487-492 `assigned`, src/assign/propagate.rs:56-66 `lit_assign!`. -/
def val (s : Stk) (l : Lit) : Option Bool := litVal s.assign l

/-- src/assign/stack.rs:259-261 `decision_level`. -/
def dl (s : Stk) : Nat := s.lim.length

/-- src/assign/stack.rs:266-268 `remains`. -/
def remains (s : Stk) : Bool := decide (s.qhead < s.trail.length)

/-- src/assign/heap.rs:77-80 `insert_heap`. -/
def insertHeap (s : Stk) (v : Nat) : Stk := { s with heap := s.heap.insert v }

/-- `insert_heap` of each of `vs`. -/
def insertHeaps (s : Stk) (vs : List Nat) : Stk := { s with heap := vs.foldl (fun h v => h.insert v) s.heap }

/-- src/assign/stack.rs:543-556 `make_var_asserted` (`remove_from_heap` included). -/
def makeAsserted (s : Stk) (v : Nat) : Stk :=
  { s with reason := upd s.reason v (.decision 0), heap := s.heap.filter (· ≠ v) }

/-- src/assign/stack.rs:557-585 `make_var_eliminated`. -/
def makeEliminated (s : Stk) (v : Nat) : Stk :=
  if s.elim v then s
  else { s with elim := upd s.elim v true, heap := s.heap.filter (· ≠ v)
                trail := s.trail.filter (·.var ≠ v), numElim := s.numElim + 1 }

/-- src/assign/trail_saving.rs:106-112 `clear_saved_trail`. -/
def clearSaved (s : Stk) : Stk := { s.insertHeaps (s.saved.map Lit.var) with saved := [] }

/-- src/assign/trail_saving.rs:17-51 `save_trail(to_lvl)` when `to_lvl` is below the decision level. `low v`: the reward of
`v` is below the threshold. -/
def saveTrail (s : Stk) (low : Nat → Bool) (lv : Nat) : Stk :=
  let lim := s.lim.getD lv 0
  if 2 ≤ s.dl then
    let lim2 := s.lim.getD (s.dl - 2) 0
    let seg := (s.trail.drop lim).take (lim2 - lim)
    let rs := fun v => if v ∈ seg.map Lit.var then s.reason v else s.reasonSaved v
    { (s.clearSaved.insertHeaps ((seg.map Lit.var).filter (fun v => !low v))).insertHeaps ((s.trail.drop lim2).map Lit.var) with
      saved := seg, reasonSaved := rs }
  else s.clearSaved.insertHeaps ((s.trail.drop lim).map Lit.var)

/-- `unset_assign!` and `reason = None` for the variables of the trail from index `k` on. -/
def unassignFrom (s : Stk) (k : Nat) : Stk :=
  { s with assign := fun v => if v ∈ (s.trail.drop k).map Lit.var then .none else s.assign v
           reason := fun v => if v ∈ (s.trail.drop k).map Lit.var then .none else s.reason v
           trail := s.trail.take k }

/-- src/assign/propagate.rs:197-301 `cancel_until`. -/
def cancelUntil (s : Stk) (low : Nat → Bool) (lv : Nat) : Stk :=
  if s.dl ≤ lv then s
  else
    let k := s.lim.getD lv 0
    { (s.saveTrail low lv).unassignFrom k with
      qhead := min k s.qhead
      lim := s.lim.take lv }

/-- src/assign/propagate.rs:302-318 `backtrack_sandbox`. -/
def backtrackSandbox (s : Stk) : Stk :=
  if s.lim = [] then s
  else
    let k := s.lim.getD 0 0
    { (s.insertHeaps ((s.trail.drop k).map Lit.var)).unassignFrom k with
      qhead := (s.trail.take k).length
      lim := [] }

/-- src/assign/propagate.rs:137-171 `assign_by_implication` at level `lv`. -/
def assignImpl (s : Stk) (l : Lit) (r : Reason) (lv : Nat) : Stk :=
  let s1 := { s with assign := upd s.assign l.var (some l.pos)
                     level := upd s.level l.var lv
                     reason := upd s.reason l.var r
                     trail := s.trail ++ [l] }
  if lv = 0 then s1.makeAsserted l.var else s1

/-- src/assign/propagate.rs:172-196 `assign_by_decision` and 806-808 `level_up`. -/
def assignDecision (s : Stk) (l : Lit) : Stk :=
  { s with assign := upd s.assign l.var (some l.pos)
           level := upd s.level l.var (s.dl + 1)
           reason := upd s.reason l.var (.decision (s.dl + 1))
           trail := s.trail ++ [l]
           lim := s.lim ++ [s.trail.length] }

/-- src/assign/propagate.rs:109-136 `assign_at_root_level`; the flag is `false` for `Err(RootLevelConflict)`. -/
def assignRoot (s : Stk) (low : Nat → Bool) (l : Lit) : Stk × Bool :=
  let s1 := s.cancelUntil low 0
  let s2 := { s1 with level := upd s1.level l.var 0 }
  match s2.assign l.var with
  | .none => ({ s2 with assign := upd s2.assign l.var (some l.pos), trail := s2.trail ++ [l] }.makeAsserted l.var, true)
  | some x => (s2, x == l.pos)

/-- src/solver/search.rs:26-32 the macro `RESTART` (the saved trail is kept). -/
def restart (s : Stk) (low : Nat → Bool) : Stk := s.cancelUntil low 0

/-- src/assign/stack.rs:216-220 the event `NewVar`: the heap is not changed (`expand_heap` does not touch its size). -/
def newVar (s : Stk) : Stk := { s with numVars := s.numVars + 1 }

/-- src/assign/select.rs:136-143 `rebuild_order`. -/
def rebuildOrder (s : Stk) : Stk :=
  { s with heap := ((List.range s.numVars).map (· + 1)).filter fun v => (s.assign v).isNone && !s.elim v }

/-- The member of the queue `get_root` returns is the most active one; here it is any member: `pick h`, or the first one when
`pick h` is not a member. -/
def choose (pick : List Nat → Nat) (h : List Nat) : Nat := if pick h ∈ h then pick h else h.headD 0

/-- src/assign/heap.rs:81-91 `get_heap_root`: the saved trail is given back to an empty heap first; then one member leaves the
heap; `none` = panic on an empty heap. -/
def heapRoot (pick : List Nat → Nat) (s : Stk) : Option (Nat × Stk) :=
  let s1 := if s.heap = [] then s.clearSaved else s
  if s1.heap = [] then .none
  else some (choose pick s1.heap, { s1 with heap := s1.heap.filter (· ≠ choose pick s1.heap) })

/-- src/assign/select.rs:148-155 `select_var`, `fuel` bounds the loop (`none` = panic; the fuel `selectFuel` is enough, see
`C14`). -/
def selectVar (pick : List Nat → Nat) : Nat → Stk → Option (Nat × Stk)
  | 0, _ => .none
  | n + 1, s =>
    match s.heapRoot pick with
    | .none => .none
    | some (v, s1) => if s1.assign v = .none ∧ s1.elim v = false then some (v, s1) else selectVar pick n s1

/-- the number of iterations of `select_var` never exceeds the heap plus the saved trail -/
def selectFuel (s : Stk) : Nat := s.heap.length + s.saved.length + 1

end Stk

/-! ## propagation -/

/-- The result of a propagation: src/assign/mod.rs `PropagationResult`. `fuel`: the model's loop bound was hit (proved
impossible), `panic`: an index out of range, an underflow or `unreachable!`. -/
inductive PRes where
  | ok (db : Cdb) (s : Stk)
  | conflict (db : Cdb) (s : Stk) (l : Lit) (r : Reason)
  | panic
  | fuel

namespace Stk

/-- src/assign/trail_saving.rs:52-105 `reuse_saved_trail`, the loop over the saved literals `todo` (oldest first); `q` is the
rank threshold. -/
def reuseLoop (db : Cdb) (q : Nat) : List Lit → Stk → PRes
  | [], s => .ok db { s with saved := [] }
  | l :: todo, s =>
    match s.val l, s.reasonSaved l.var with
    | some true, _ => reuseLoop db q todo s
    | .none, .binary m => reuseLoop db q todo (s.assignImpl l (.binary m) s.dl)
    | .none, .impl cid =>
      if q < (db.clause cid).rank then .ok db { s.insertHeap l.var with saved := l :: todo }
      else reuseLoop db q todo (s.assignImpl l (.impl cid) s.dl)
    | some false, .binary m => .conflict db ({ s with saved := l :: todo }).clearSaved l (.binary m)
    | some false, .impl cid =>
      match (db.clause cid).lits with
      | l0 :: _ => .conflict db ({ s with saved := l :: todo }).clearSaved l0 (.impl cid)
      | [] => .panic
    | _, .decision _ => .ok db { s.insertHeap l.var with saved := l :: todo }
    | _, _ => .panic

/-- src/assign/trail_saving.rs:52-105 `reuse_saved_trail`. -/
def reuse (db : Cdb) (q : Nat) (s : Stk) : PRes := reuseLoop db q s.saved s

/-- src/assign/propagate.rs:417-446 (and 612-638): the loop over the binary clauses of `!p`. -/
def binLoop (p : Lit) (db : Cdb) : List (Lit × Nat) → Stk → PRes
  | [], s => .ok db s
  | (b, _) :: bs, s =>
    match s.val b with
    | some true => binLoop p db bs s
    | some false => .conflict db s b (.binary p)
    | .none => binLoop p db bs (s.assignImpl b (.binary p) s.dl)

/-- `search_from` after a move to position `k`: src/assign/propagate.rs:515, 695. -/
def nextSf (sandbox : Bool) (k : Nat) : Nat := if sandbox then Scan.nextStartSandbox k else Scan.nextStart k

/-- src/assign/propagate.rs:447-551 (and 642-741): the loop over the watch list of `p`. `idx` is the position of the iterator
and `n` the number of entries left (src/cdb/watch_cache.rs:99-132). A `search_from` below 2 (after a wrap at 65536) is a panic,
as in a build with overflow checks. -/
def watchLoop (sandbox : Bool) (p : Lit) : Nat → Nat → Cdb → Stk → PRes
  | 0, _, db, s => .ok db s
  | n + 1, idx, db, s =>
    match (db.watch p)[idx]? with
    | .none => .panic
    | some (cid, cached) =>
      if sandbox && (db.clause cid).dead then watchLoop sandbox p n (idx + 1) db s
      else if s.val cached = some true then watchLoop sandbox p n (idx + 1) db s
      else
        match (db.clause cid).lits with
        | l0 :: l1 :: tl =>
          let pos := if p.neg = l1 then 1 else 0
          let other := if p.neg = l1 then l0 else l1
          if cached ≠ other ∧ s.val other = some true then
            watchLoop sandbox p n (idx + 1) (db.restoreWatch p idx (some other)) s
          else
            match Scan.order (l0 :: l1 :: tl).length (db.clause cid).searchFrom with
            | .none => .panic
            | some ks =>
              match ks.find? (fun k => ((l0 :: l1 :: tl)[k]?.bind s.val) != some false) with
              | some k =>
                if nextSf sandbox k < 2 then .panic
                else watchLoop sandbox p n idx (db.moveWatch p idx cid pos k (nextSf sandbox k)) s
              | .none =>
                let db1 := (if pos = 0 then db.swapWatch cid else db).restoreWatch p idx
                  (if cached ≠ other then some other else .none)
                if s.val other = some false then .conflict db1 s other (.impl cid)
                else watchLoop sandbox p n (idx + 1) db1 (s.assignImpl other (.impl cid) s.dl)
        | _ => .panic

/-- One literal: the binary loop, then the watch loop. -/
def propLit (sandbox : Bool) (p : Lit) (db : Cdb) (s : Stk) : PRes :=
  match binLoop p db (db.blist p.neg) s with
  | .ok db1 s1 => watchLoop sandbox p (db1.watch p).length 0 db1 s1
  | r => r

/-- src/assign/propagate.rs:399-563 the main loop of `propagate`. -/
def propLoop (q : Nat) : Nat → Cdb → Stk → PRes
  | 0, _, _ => .fuel
  | n + 1, db, s =>
    match s.trail[s.qhead]? with
    | .none => .ok db s
    | some p =>
      match propLit false p db { s with qhead := s.qhead + 1 } with
      | .ok db1 s1 =>
        match reuse db1 q s1 with
        | .ok db2 s2 => propLoop q n db2 s2
        | r => r
      | r => r

/-- src/assign/propagate.rs:577-745 the main loop of `propagate_sandbox`. -/
def propLoopSandbox : Nat → Cdb → Stk → PRes
  | 0, _, _ => .fuel
  | n + 1, db, s =>
    match s.trail[s.qhead]? with
    | .none => .ok db s
    | some p =>
      match propLit true p db { s with qhead := s.qhead + 1 } with
      | .ok db1 s1 => propLoopSandbox n db1 s1
      | r => r

/-- Enough iterations for any propagation: every iteration consumes one literal of the trail. -/
def propFuel (s : Stk) : Nat := s.numVars + 1

/-- src/assign/propagate.rs:326-563 `propagate`. -/
def propagate (q : Nat) (db : Cdb) (s : Stk) : PRes :=
  match reuse db q s with
  | .ok db1 s1 => propLoop q s1.propFuel db1 s1
  | r => r

/-- src/assign/propagate.rs:577-745 `propagate_sandbox`. -/
def propagateSandbox (db : Cdb) (s : Stk) : PRes := propLoopSandbox s.propFuel db s

end Stk
end Splr
