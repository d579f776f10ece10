import Verif.Model.Queue
/-!
# An iteration of the main loop, with the array queue and with range checks

The functions of Verif/Model/Stk.lean and Verif/Model/Conflict.lean that propagate and handle conflicts, once more, with two differences. The queue of
variables is the array of the code. Every index into an array that is used on the way is checked, and the result is a panic if it is out of
range: with the default features the program reads these arrays without a check (`unsafe_access`), so that a panic here stands for undefined
behaviour there. The functions have the suffix `Q`.
-/
namespace Splr
namespace QStk

/-- An index into the arrays of variables, `var`, `assign`, `level`, `reason`, or of a literal into `watch_cache` and `binary_link`:
src/assign/stack.rs:173-201, src/cdb/db.rs:243-270. -/
def okV (x : QStk) (v : Nat) : Bool := decide (1 ≤ v) && decide (v ≤ x.s.numVars)

/-- An index into the clauses, src/cdb/db.rs:20-50. -/
def okC (db : Cdb) (i : Nat) : Bool := decide (1 ≤ i) && decide (i < db.len)

/-- The result of a propagation, see `PRes`. -/
inductive PResQ where
  | ok (db : Cdb) (x : QStk)
  | conflict (db : Cdb) (x : QStk) (l : Lit) (r : Reason)
  | panic
  | fuel

/-- A check before what follows. -/
def PResQ.chk (b : Bool) (r : PResQ) : PResQ := if b then r else .panic

/-- An operation that can panic before what follows. -/
def PResQ.lift (o : Option QStk) (k : QStk → PResQ) : PResQ :=
  match o with
  | some x => k x
  | .none => .panic

open PResQ

/-- src/assign/trail_saving.rs:52-105 `reuse_saved_trail`, the loop. See `Stk.reuseLoop`. -/
def reuseLoopQ (db : Cdb) (q : Nat) : List Lit → QStk → PResQ
  | [], x => .ok db { x with s := { x.s with saved := [] } }
  | l :: todo, x =>
    chk (x.okV l.var)
      (match x.s.val l, x.s.reasonSaved l.var with
      | some true, _ => reuseLoopQ db q todo x
      | .none, .binary m => lift (x.assignImplQ l (.binary m) x.s.dl) (reuseLoopQ db q todo)
      | .none, .impl cid =>
        chk (okC db cid)
          (if q < (db.clause cid).rank then lift (x.insertQ l.var) fun y => .ok db { y with s := { y.s with saved := l :: todo } }
          else lift (x.assignImplQ l (.impl cid) x.s.dl) (reuseLoopQ db q todo))
      | some false, .binary m => lift (clearSavedQ { x with s := { x.s with saved := l :: todo } }) fun y => .conflict db y l (.binary m)
      | some false, .impl cid =>
        chk (okC db cid)
          (match (db.clause cid).lits with
          | l0 :: _ => lift (clearSavedQ { x with s := { x.s with saved := l :: todo } }) fun y => .conflict db y l0 (.impl cid)
          | [] => .panic)
      | _, .decision _ => lift (x.insertQ l.var) fun y => .ok db { y with s := { y.s with saved := l :: todo } }
      | _, _ => .panic)

/-- src/assign/trail_saving.rs:52-105 `reuse_saved_trail`. -/
def reuseQ (db : Cdb) (q : Nat) (x : QStk) : PResQ := reuseLoopQ db q x.s.saved x

/-- src/assign/propagate.rs:417-446 (and 612-638): the loop over the binary clauses of `!p`. -/
def binLoopQ (p : Lit) (db : Cdb) : List (Lit × Nat) → QStk → PResQ
  | [], x => .ok db x
  | (b, _) :: bs, x =>
    chk (x.okV b.var)
      (match x.s.val b with
      | some true => binLoopQ p db bs x
      | some false => .conflict db x b (.binary p)
      | .none => lift (x.assignImplQ b (.binary p) x.s.dl) (binLoopQ p db bs))

/-- src/assign/propagate.rs:504-523 the search for a literal that is not false, at the positions `ks`; `none`: a position outside the clause
or a variable out of range. -/
def scanQ (x : QStk) (lits : Cls) : List Nat → Option (Option Nat)
  | [] => some .none
  | k :: ks =>
    match lits[k]? with
    | .none => .none
    | some l => if x.okV l.var then (if x.s.val l != some false then some (some k) else scanQ x lits ks) else .none

/-- src/assign/propagate.rs:447-551 (and 642-741): the loop over the watch list of `p`. See `Stk.watchLoop`. -/
def watchLoopQ (sandbox : Bool) (p : Lit) : Nat → Nat → Cdb → QStk → PResQ
  | 0, _, db, x => .ok db x
  | n + 1, idx, db, x =>
    match (db.watch p)[idx]? with
    | .none => .panic
    | some (cid, cached) =>
      chk (okC db cid && x.okV cached.var)
        (if sandbox && (db.clause cid).dead then watchLoopQ sandbox p n (idx + 1) db x
        else if x.s.val cached = some true then watchLoopQ sandbox p n (idx + 1) db x
        else
          match (db.clause cid).lits with
          | l0 :: l1 :: tl =>
            let pos := if p.neg = l1 then 1 else 0
            let other := if p.neg = l1 then l0 else l1
            chk (x.okV other.var)
              (if cached ≠ other ∧ x.s.val other = some true then watchLoopQ sandbox p n (idx + 1) (db.restoreWatch p idx (some other)) x
              else
                match Scan.order (l0 :: l1 :: tl).length (db.clause cid).searchFrom with
                | .none => .panic
                | some ks =>
                  match scanQ x (l0 :: l1 :: tl) ks with
                  | .none => .panic
                  | some (some k) =>
                    if Stk.nextSf sandbox k < 2 then .panic
                    else watchLoopQ sandbox p n idx (db.moveWatch p idx cid pos k (Stk.nextSf sandbox k)) x
                  | some .none =>
                    let db1 := (if pos = 0 then db.swapWatch cid else db).restoreWatch p idx
                      (if cached ≠ other then some other else .none)
                    if x.s.val other = some false then .conflict db1 x other (.impl cid)
                    else lift (x.assignImplQ other (.impl cid) x.s.dl) fun y => watchLoopQ sandbox p n (idx + 1) db1 y)
          | _ => .panic)

/-- One literal: the binary loop, then the watch loop. -/
def propLitQ (sandbox : Bool) (p : Lit) (db : Cdb) (x : QStk) : PResQ :=
  chk (x.okV p.var)
    (match binLoopQ p db (db.blist p.neg) x with
    | .ok db1 x1 => watchLoopQ sandbox p (db1.watch p).length 0 db1 x1
    | r => r)

/-- src/assign/propagate.rs:399-563 the main loop of `propagate`. -/
def propLoopQ (q : Nat) : Nat → Cdb → QStk → PResQ
  | 0, _, _ => .fuel
  | n + 1, db, x =>
    match x.s.trail[x.s.qhead]? with
    | .none => .ok db x
    | some p =>
      match propLitQ false p db { x with s := { x.s with qhead := x.s.qhead + 1 } } with
      | .ok db1 x1 =>
        match reuseQ db1 q x1 with
        | .ok db2 x2 => propLoopQ q n db2 x2
        | r => r
      | r => r

/-- src/assign/propagate.rs:577-745 the main loop of `propagate_sandbox`. -/
def propLoopSandboxQ : Nat → Cdb → QStk → PResQ
  | 0, _, _ => .fuel
  | n + 1, db, x =>
    match x.s.trail[x.s.qhead]? with
    | .none => .ok db x
    | some p =>
      match propLitQ true p db { x with s := { x.s with qhead := x.s.qhead + 1 } } with
      | .ok db1 x1 => propLoopSandboxQ n db1 x1
      | r => r

/-- src/assign/propagate.rs:326-563 `propagate`. -/
def propagateQ (q : Nat) (db : Cdb) (x : QStk) : PResQ :=
  match reuseQ db q x with
  | .ok db1 x1 => propLoopQ q x1.s.propFuel db1 x1
  | r => r

/-- src/assign/propagate.rs:577-745 `propagate_sandbox`. -/
def propagateSandboxQ (db : Cdb) (x : QStk) : PResQ := propLoopSandboxQ x.s.propFuel db x

/-! ## conflicts -/

/-- src/solver/conflict.rs:270-281, 291-318, 354-371, see `Ana.add`. -/
def addC (x : QStk) (d : Nat) (skipRoot : Bool) (a : Ana) (q : Lit) : Option Ana := if x.okV q.var then some (a.add x.s d skipRoot q) else .none

/-- The literals of a clause but the first. -/
def addsC (x : QStk) (d : Nat) : Cls → Ana → Option Ana
  | [], a => some a
  | q :: qs, a => (x.addC d true a q).bind (addsC x d qs)

/-- src/solver/conflict.rs:286-385 one `match reason`, see `Ana.expand`. -/
def expandC (db : Cdb) (x : QStk) (d : Nat) (a : Ana) : Reason → Option Ana
  | .binary l => x.addC d false a l.neg
  | .impl cid => if okC db cid then x.addsC d ((db.clause cid).lits.drop 1) a else .none
  | _ => some a

/-- src/solver/conflict.rs:386-426 the rest of the loop, see `Ana.loop`. -/
def loopC (db : Cdb) (x : QStk) (d : Nat) : List Lit → Ana → Option (Lit × Ana)
  | [], _ => .none
  | t :: ts, a =>
    if x.okV t.var then
      if a.seen t.var && x.s.level t.var == d then
        let a1 := { a with seen := upd a.seen t.var false, cnt := a.cnt - 1 }
        if a1.cnt = 0 then some (t, a1)
        else (expandC db x d a1 (x.s.reason t.var)).bind (loopC db x d ts)
      else loopC db x d ts a
    else .none

/-- src/solver/conflict.rs:596-645 the antecedents of one popped literal, see `redLits`; `none` = panic. The vector `levels` has an entry for each
level up to the current one. -/
def redLitsC (x : QStk) (levels : Nat → Bool) : Cls → Red → Option (Option Red)
  | [], a => some (some a)
  | q :: qs, a =>
    if x.okV q.var then
      if 0 < x.s.level q.var ∧ a.seen q.var = false then
        if (x.s.reason q.var).implied then
          if x.s.level q.var ≤ x.s.dl then
            if levels (x.s.level q.var) then
              redLitsC x levels qs { stack := q :: a.stack, seen := upd a.seen q.var true, clear := a.clear ++ [q] }
            else some .none
          else .none
        else some .none
      else redLitsC x levels qs a
    else .none

/-- src/solver/conflict.rs:597, 620, 647: the reason of a popped literal is a clause that is there. -/
def reasonC (db : Cdb) : Reason → Bool
  | .binary _ => true
  | .impl cid => okC db cid && decide (1 ≤ (db.clause cid).lits.length)
  | _ => false

/-- src/solver/conflict.rs:594-650 the loop over the stack, see `redLoop`; `none` = panic. -/
def redLoopC (db : Cdb) (x : QStk) (levels : Nat → Bool) : Nat → Red → Option RedRes
  | 0, a => some (if a.stack = [] then .yes a else .fuel)
  | n + 1, a =>
    match a.stack with
    | [] => some (.yes a)
    | sl :: st =>
      if x.okV sl.var && reasonC db (x.s.reason sl.var) then
        match redLitsC x levels (antecedents db (x.s.reason sl.var)) { a with stack := st } with
        | .none => .none
        | some .none => some .no
        | some (some a1) => redLoopC db x levels n a1
      else .none

/-- src/solver/conflict.rs:581-653 `is_redundant`, see `isRedundant`. -/
def isRedundantC (db : Cdb) (x : QStk) (levels : Nat → Bool) (seen : Nat → Bool) (clear : Cls) (l : Lit) : Option (Bool × (Nat → Bool) × Cls) :=
  if x.okV l.var then
    match x.s.reason l.var with
    | .decision _ => some (false, seen, clear)
    | .none => .none
    | _ =>
      match redLoopC db x levels (x.s.trail.length + 1) { stack := [l], seen := seen, clear := clear } with
      | some (.yes a) => some (true, a.seen, a.clear)
      | some .no => some (false, seen, clear)
      | _ => .none
  else .none

/-- src/solver/conflict.rs:551 the `retain`, see `retainLoop`. -/
def retainLoopC (db : Cdb) (x : QStk) (levels : Nat → Bool) : Cls → (Nat → Bool) → Cls → Option (Cls × (Nat → Bool) × Cls)
  | [], seen, clear => some ([], seen, clear)
  | l :: ls, seen, clear =>
    match isRedundantC db x levels seen clear l with
    | .none => .none
    | some (r, seen1, clear1) =>
      match retainLoopC db x levels ls seen1 clear1 with
      | .none => .none
      | some (kept, seen2, clear2) => some (if r then kept else l :: kept, seen2, clear2)

/-- src/cdb/db.rs:1163-1188 `minimize_with_bi_clauses`: all literals and the clauses linked to the first one. -/
def biMinimizeC (db : Cdb) (x : QStk) (v : Cls) : Option Cls :=
  if (v.all fun l => x.okV l.var) &&
      ((v.take 1).all fun l0 => (db.blist l0).all fun e =>
        okC db e.2 && decide (2 ≤ (db.clause e.2).lits.length) && (db.clause e.2).lits.all fun l => x.okV l.var)
  then some (biMinimize db x.s v) else .none

/-- src/solver/conflict.rs:535-575 `minimize_learnt`, see `minimizeLearnt`. -/
def minimizeLearntC (db : Cdb) (x : QStk) (l0 : Lit) (rest : Cls) (seen : Nat → Bool) : Option (Cls × Nat × (Nat → Bool)) :=
  if rest.all fun l => x.okV l.var && decide (x.s.level l.var ≤ x.s.dl) then
    let levels := fun lv => (rest.map fun l => x.s.level l.var).contains lv
    match retainLoopC db x levels rest seen (l0 :: rest) with
    | .none => .none
    | some (kept, seen1, clear) =>
      match (if 2 < (l0 :: kept).length then biMinimizeC db x (l0 :: kept) else some (l0 :: kept)) with
      | .none => .none
      | some v =>
        if (v.all fun l => x.okV l.var) && (clear.all fun l => x.okV l.var) then
          let (v, lv) := Splr.placeSecond x.s v
          some (v, lv, fun y => if y ∈ clear.map Lit.var then false else seen1 y)
        else .none
  else .none

/-- src/solver/conflict.rs:209-533 `conflict_analyze`, see `conflictAnalyze`. -/
def conflictAnalyzeC (db : Cdb) (x : QStk) (l : Lit) (r : Reason) : Option (Cls × Nat × (Nat → Bool)) :=
  (x.addC x.s.dl false { seen := fun _ => false, rest := [], cnt := 0 } l).bind fun a0 =>
    (expandC db x x.s.dl a0 r).bind fun a1 =>
      match loopC db x x.s.dl x.s.trail.reverse a1 with
      | .none => .none
      | some (p, a) => minimizeLearntC db x p.neg a.rest a.seen

/-- src/solver/conflict.rs:108-149 the learnt literals and those of their reasons are rewarded; a reason `None` is a panic. -/
def rewardC (db : Cdb) (x : QStk) (v : Cls) : Bool :=
  v.all fun l => x.okV l.var &&
    match x.s.reason l.var with
    | .binary m => x.okV m.var
    | .impl cid => okC db cid && (db.clause cid).lits.all fun m => x.okV m.var
    | .decision _ => true
    | .none => false

/-- The result of `handle_conflict`, see `HRes`. -/
inductive HResQ where
  | ok (db : Cdb) (x : QStk)
  | unsat (db : Cdb) (x : QStk)
  | panic

/-- src/solver/conflict.rs:100-206 the learnt clause has two or more literals, see `learnClause`. The rank of the new clause is computed in a table
indexed by levels (src/cdb/db.rs:261, src/types/clause.rs:273-302). -/
def learnClauseQ (db : Cdb) (x : QStk) (low : Nat → Bool) (drift : Bool) (v : Cls) (lv : Nat) : HResQ :=
  let dr := drift && decide (0 < lv) && decide (2 < v.length)
  if rewardC db x v then
    match (if dr then (x.cancelUntilQ low (lv - 1)).bind clearSavedQ else x.cancelUntilQ low lv) with
    | .none => .panic
    | some x1 =>
      if v.all fun l => x1.okV l.var && decide (x1.s.level l.var ≤ x1.s.numVars) then
        match v with
        | l0 :: l1 :: _ =>
          match db.newClause x1.s.level v true with
          | .none => .panic
          | some (db1, .clause cid) =>
            if dr then .ok db1 x1
            else
              match x1.assignImplQ l0 (if v.length = 2 then .binary l1.neg else .impl cid) lv with
              | .none => .panic
              | some x2 => .ok db1 x2
          | some (db1, .registered _) =>
            if dr then .ok db1 x1
            else
              match x1.assignImplQ l0 (.binary l1.neg) lv with
              | .none => .panic
              | some x2 => .ok db1 x2
          | some (_, _) => .panic
        | _ => .panic
      else .panic
  else .panic

/-- src/solver/conflict.rs:77-99 the learnt clause is a unit, see `learnUnit`. -/
def learnUnitQ (db : Cdb) (x : QStk) (low : Nat → Bool) (l0 : Lit) : HResQ :=
  if x.okV l0.var then
    if x.s.val l0 = some true ∧ 0 < x.s.level l0.var then .panic
    else if x.s.val l0 = some false ∧ x.s.level l0.var = 0 then .unsat db x
    else
      match x.assignRootQ low l0 with
      | some (x1, true) => .ok (db.log (.add [l0])) x1
      | _ => .panic
  else .panic

/-- src/solver/conflict.rs:40-46: the conflicting clause is looked at. -/
def rootC (db : Cdb) (x : QStk) : Reason → Bool
  | .impl cid => okC db cid && (db.clause cid).lits.all fun l => x.okV l.var
  | _ => true

/-- src/solver/conflict.rs:22-206 `handle_conflict` of the conflict `(l, r)`, see `handleConflict`. (The clause `rr` whose rank is refreshed is
one of those visited by the analysis; their indices have been checked.) -/
def handleConflictQ (db : Cdb) (x : QStk) (low : Nat → Bool) (rr : Option Nat) (drift : Bool) (l : Lit) (r : Reason) : HResQ :=
  if rootC db x r then
    if rootConflict db x.s r then .unsat db x
    else
      match conflictAnalyzeC db x l r with
      | .none => .panic
      | some ([], _, _) => .unsat db x
      | some ([l0], _, _) => learnUnitQ (db.rerankOne x.s.level rr) x low l0
      | some (v, lv, _) => learnClauseQ (db.rerankOne x.s.level rr) x low drift v lv
  else .panic

/-! ## an iteration -/

/-- The result of an iteration: `Ok`, `Err(UNSAT)`, a panic. -/
inductive IResQ where
  | ok (db : Cdb) (x : QStk)
  | unsat (db : Cdb) (x : QStk)
  | panic
  | fuel

/-- src/solver/search.rs:236-395 one iteration of the main loop, up to the end of a stage, see `searchStep`. -/
def iterationQ (o : Orc) (db : Cdb) (x : QStk) : IResQ :=
  match x.decideStepQ o.phase with
  | .none => .panic
  | some x1 =>
    match propagateQ o.q db x1 with
    | .ok db1 x2 => .ok db1 x2
    | .panic => .panic
    | .fuel => .fuel
    | .conflict db1 x2 l r =>
      if x2.s.dl = 0 then .unsat db1 x2
      else
        match handleConflictQ db1 x2 o.low o.rr o.drift l r with
        | .panic => .panic
        | .unsat db2 x3 => .unsat db2 x3
        | .ok db2 x3 =>
          if o.restart then
            match x3.cancelUntilQ o.low2 0 with
            | .none => .panic
            | some x4 => .ok db2 x4
          else .ok db2 x3

end QStk
end Splr
