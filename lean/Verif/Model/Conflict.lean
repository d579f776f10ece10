import Verif.Model.Stk
/-!
# Conflict analysis: src/solver/conflict.rs, and `minimize_with_bi_clauses` of src/cdb/db.rs

The flag CA_SEEN is a local table: every call leaves all flags off (src/solver/conflict.rs:409, 571-573; see `C05`).
Rewards and EMAs are left out. Which clause gets its rank refreshed (`update_at_analysis`) and whether a learnt clause is of
low quality (`bt_drift`) depend on statistics and are universally quantified arguments.
-/
namespace Splr

/-- The state of `conflict_analyze`: CA_SEEN, the learnt literals but the first, `path_cnt`. -/
structure Ana where
  seen : Nat → Bool
  rest : Cls
  cnt : Int

namespace Ana

/-- src/solver/conflict.rs:270-281, 291-318, 354-371: the literal `q` (false now) is looked at for the first time: count it if
it belongs to the conflict level `d`, otherwise it goes to the learnt clause. `skipRoot`: literals of the root level are
ignored (this is done for literals of long clauses only). -/
def add (s : Stk) (d : Nat) (skipRoot : Bool) (a : Ana) (q : Lit) : Ana :=
  if a.seen q.var then a
  else if skipRoot && s.level q.var == 0 then a
  else if s.level q.var = d then { a with seen := upd a.seen q.var true, cnt := a.cnt + 1 }
  else { a with seen := upd a.seen q.var true, rest := a.rest ++ [q] }

/-- src/solver/conflict.rs:286-385 one `match reason`. -/
def expand (db : Cdb) (s : Stk) (d : Nat) (a : Ana) : Reason → Ana
  | .binary l => a.add s d false l.neg
  | .impl cid => ((db.clause cid).lits.drop 1).foldl (add s d true) a
  | _ => a

/-- src/solver/conflict.rs:386-426: the rest of the loop. The list is the trail from `trail_index` downwards; `none` = index
out of range. Returns `p` and the final state. -/
def loop (db : Cdb) (s : Stk) (d : Nat) : List Lit → Ana → Option (Lit × Ana)
  | [], _ => none
  | t :: ts, a =>
    if a.seen t.var && s.level t.var == d then
      let a1 := { a with seen := upd a.seen t.var false, cnt := a.cnt - 1 }
      if a1.cnt = 0 then some (t, a1)
      else loop db s d ts (a1.expand db s d (s.reason t.var))
    else loop db s d ts a

end Ana

/-! ## minimisation -/

/-- The reason is a clause. -/
def Reason.implied : Reason → Bool
  | .binary _ => true
  | .impl _ => true
  | _ => false

/-- The literals (up to sign) a reason depends on: src/solver/conflict.rs:597, 620. -/
def antecedents (db : Cdb) : Reason → Cls
  | .binary l => [l]
  | .impl cid => (db.clause cid).lits.drop 1
  | _ => []

/-- The state of `is_redundant`: the stack (top first), CA_SEEN, `clear`. -/
structure Red where
  stack : Cls
  seen : Nat → Bool
  clear : Cls

/-- src/solver/conflict.rs:596-645 the antecedents of one popped literal; `none` = `return false`. -/
def redLits (s : Stk) (levels : Nat → Bool) : Cls → Red → Option Red
  | [], a => some a
  | q :: qs, a =>
    if 0 < s.level q.var ∧ a.seen q.var = false then
      if (s.reason q.var).implied && levels (s.level q.var) then
        redLits s levels qs { stack := q :: a.stack, seen := upd a.seen q.var true, clear := a.clear ++ [q] }
      else none
    else redLits s levels qs a

/-- The answer of `is_redundant`. -/
inductive RedRes where
  | yes (a : Red)
  | no
  | fuel

/-- src/solver/conflict.rs:594-650 the loop over the stack. -/
def redLoop (db : Cdb) (s : Stk) (levels : Nat → Bool) : Nat → Red → RedRes
  | 0, a => if a.stack = [] then .yes a else .fuel
  | n + 1, a =>
    match a.stack with
    | [] => .yes a
    | sl :: st =>
      match redLits s levels (antecedents db (s.reason sl.var)) { a with stack := st } with
      | none => .no
      | some a1 => redLoop db s levels n a1

/-- src/solver/conflict.rs:581-653 `is_redundant`. When the answer is no, the flags turned on by this call are turned off and
`clear` is truncated, so the caller's `seen` and `clear` are returned. -/
def isRedundant (db : Cdb) (s : Stk) (levels : Nat → Bool) (seen : Nat → Bool) (clear : Cls) (l : Lit) :
    Option (Bool × (Nat → Bool) × Cls) :=
  match s.reason l.var with
  | .decision _ => some (false, seen, clear)
  | .none => none
  | _ =>
    match redLoop db s levels (s.trail.length + 1) { stack := [l], seen := seen, clear := clear } with
    | .yes a => some (true, a.seen, a.clear)
    | .no => some (false, seen, clear)
    | .fuel => none

/-- src/solver/conflict.rs:551 the `retain` over the literals but the first (the first, `l0`, is always kept; another copy of
`l0` would be kept too, but the literals are distinct). Returns what is kept, CA_SEEN and `to_clear`. -/
def retainLoop (db : Cdb) (s : Stk) (levels : Nat → Bool) : Cls → (Nat → Bool) → Cls → Option (Cls × (Nat → Bool) × Cls)
  | [], seen, clear => some ([], seen, clear)
  | l :: ls, seen, clear =>
    match isRedundant db s levels seen clear l with
    | none => none
    | some (r, seen1, clear1) =>
      match retainLoop db s levels ls seen1 clear1 with
      | none => none
      | some (kept, seen2, clear2) => some (if r then kept else l :: kept, seen2, clear2)

/-- src/cdb/db.rs:1163-1188 `minimize_with_bi_clauses`. -/
def biMinimize (db : Cdb) (s : Stk) : Cls → Cls
  | [] => []
  | l0 :: rest =>
    let others := (db.blist l0).filterMap fun e =>
      match (db.clause e.2).lits with
      | [a, b] => some (if a = l0 then b else a)
      | _ => none
    let gone := ((others.filter fun o => s.val o == some true).map Lit.var).filter fun v => decide (v ∈ rest.map Lit.var)
    if gone = [] then l0 :: rest
    else (l0 :: rest).filter fun l => decide (l.var = l0.var) || decide (l.var ∉ gone)

/-- src/solver/conflict.rs:557-569: the position (≥ 1) of the first literal of the highest level, and that level. -/
def maxLevelAt (s : Stk) : Cls → Nat → Nat → Nat → Nat × Nat
  | [], _, best, lv => (best, lv)
  | l :: ls, i, best, lv => if lv < s.level l.var then maxLevelAt s ls (i + 1) i (s.level l.var) else maxLevelAt s ls (i + 1) best lv

/-- src/solver/conflict.rs:557-570: exchange the literal of the highest level with the one at index 1; return the level. -/
def placeSecond (s : Stk) (v : Cls) : Cls × Nat :=
  match v with
  | l0 :: l1 :: tl =>
    let (i, lv) := maxLevelAt s tl 2 1 (s.level l1.var)
    (swapAt (l0 :: l1 :: tl) 1 i, lv)
  | v => (v, 0)

/-- src/solver/conflict.rs:535-575 `minimize_learnt` on `l0 :: rest`. Also returns CA_SEEN as left behind. -/
def minimizeLearnt (db : Cdb) (s : Stk) (l0 : Lit) (rest : Cls) (seen : Nat → Bool) : Option (Cls × Nat × (Nat → Bool)) :=
  let levels := fun lv => (rest.map fun l => s.level l.var).contains lv
  match retainLoop db s levels rest seen (l0 :: rest) with
  | none => none
  | some (kept, seen1, clear) =>
    let v := l0 :: kept
    let v := if 2 < v.length then biMinimize db s v else v
    let (v, lv) := placeSecond s v
    some (v, lv, fun x => if x ∈ clear.map Lit.var then false else seen1 x)

/-- src/solver/conflict.rs:209-533 `conflict_analyze` of the conflict `(l, r)`: the learnt clause, the level to return to, and
CA_SEEN as left behind; `none` = panic. -/
def conflictAnalyze (db : Cdb) (s : Stk) (l : Lit) (r : Reason) : Option (Cls × Nat × (Nat → Bool)) :=
  let a0 : Ana := Ana.add s s.dl false { seen := fun _ => false, rest := [], cnt := 0 } l
  match Ana.loop db s s.dl s.trail.reverse (a0.expand db s s.dl r) with
  | none => none
  | some (p, a) => minimizeLearnt db s p.neg a.rest a.seen

/-! ## handling a conflict -/

/-- The result of `handle_conflict`. `unsat`: `Err(RootLevelConflict)` or `Err(EmptyClause)`. -/
inductive HRes where
  | ok (db : Cdb) (s : Stk)
  | unsat (db : Cdb) (s : Stk)
  | panic

/-- src/cdb/db.rs:1013-1029 `update_at_analysis`: the rank of one clause is refreshed. -/
def Cdb.rerankOne (db : Cdb) (level : Nat → Nat) : Option Nat → Cdb
  | none => db
  | some cid => if (db.clause cid).dead then db else db.setC cid { db.clause cid with rank := lbdOf level (db.clause cid).lits }

/-- src/solver/conflict.rs:134-206 the learnt clause has two or more literals. -/
def learnClause (db : Cdb) (s : Stk) (low : Nat → Bool) (drift : Bool) (v : Cls) (lv : Nat) : HRes :=
  let dr := drift && decide (0 < lv) && decide (2 < v.length)
  let s1 := if dr then (s.cancelUntil low (lv - 1)).clearSaved else s.cancelUntil low lv
  match v with
  | l0 :: l1 :: _ =>
    match db.newClause s1.level v true with
    | none => .panic
    | some (db1, .clause cid) =>
      if dr then .ok db1 s1
      else .ok db1 (s1.assignImpl l0 (if v.length = 2 then .binary l1.neg else .impl cid) lv)
    | some (db1, .registered _) => if dr then .ok db1 s1 else .ok db1 (s1.assignImpl l0 (.binary l1.neg) lv)
    | some (_, _) => .panic
  | _ => .panic

/-- src/solver/conflict.rs:77-99 the learnt clause is a unit. -/
def learnUnit (db : Cdb) (s : Stk) (low : Nat → Bool) (l0 : Lit) : HRes :=
  if s.val l0 = some true ∧ 0 < s.level l0.var then .panic
  else if s.val l0 = some false ∧ s.level l0.var = 0 then .unsat db s
  else
    match s.assignRoot low l0 with
    | (s1, true) => .ok (db.log (.add [l0])) s1
    | (_, false) => .panic

/-- src/solver/conflict.rs:40-46: the conflicting clause is false at the root level. -/
def rootConflict (db : Cdb) (s : Stk) : Reason → Bool
  | .impl cid => (db.clause cid).lits.all fun x => s.level x.var == 0
  | _ => false

/-- src/solver/conflict.rs:22-206 `handle_conflict` of the conflict `(l, r)`. -/
def handleConflict (db : Cdb) (s : Stk) (low : Nat → Bool) (rr : Option Nat) (drift : Bool) (l : Lit) (r : Reason) : HRes :=
  if rootConflict db s r then .unsat db s
  else
    match conflictAnalyze db s l r with
    | none => .panic
    | some ([], _, _) => .unsat db s
    | some ([l0], _, _) => learnUnit (db.rerankOne s.level rr) s low l0
    | some (v, lv, _) => learnClause (db.rerankOne s.level rr) s low drift v lv

end Splr
