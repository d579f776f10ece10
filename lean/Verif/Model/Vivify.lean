import Verif.Model.Root
/-!
# Vivification: src/cdb/vivify.rs

Which clauses are tried and in which order (`select_targets`) depends on statistics: the list of clause ids is a universally
quantified argument.
-/
namespace Splr

/-- src/cdb/vivify.rs:249-335 `analyze_sandbox`, the sweep over the trail above the root level, newest literal first; `seen` is
a fresh table for every call (a fresh key). `none` = `unreachable!`. -/
def sandboxSweep (db : Cdb) (s : Stk) (decisions : List Lit) : List Lit → (Nat → Bool) → Option Cls
  | [], _ => some []
  | l :: ls, seen =>
    if seen l.var then
      let keep := if l ∈ decisions then [l.neg] else []
      match s.reason l.var with
      | .decision _ => (sandboxSweep db s decisions ls seen).map (keep ++ ·)
      | .binary m => (sandboxSweep db s decisions ls (upd seen m.var true)).map (keep ++ ·)
      | .impl cid =>
        (sandboxSweep db s decisions ls
          (fun v => seen v || decide (v ∈ ((db.clause cid).lits.drop 1).map Lit.var))).map (keep ++ ·)
      | .none => none
    else sandboxSweep db s decisions ls seen

/-- src/cdb/vivify.rs:249-335 `analyze_sandbox`. -/
def analyzeSandbox (db : Cdb) (s : Stk) (decisions : List Lit) (conflicting : Cls) : Option Cls :=
  sandboxSweep db s decisions (s.trail.drop (s.lim.getD 0 0)).reverse (fun v => decide (v ∈ conflicting.map Lit.var))

/-- src/cdb/vivify.rs:71-136: the literals of the target are falsified one after another. -/
inductive VDec where
  /-- no conflict -/
  | done (db : Cdb) (s : Stk)
  | conflict (db : Cdb) (s : Stk) (decisions : List Lit) (l : Lit) (r : Reason)
  | panic
  | fuel

/-- src/cdb/vivify.rs:71-80: the loop over the literals of the target up to a conflict. -/
def vivDecide : Cls → List Lit → Cdb → Stk → VDec
  | [], _, db, s => .done db s
  | l :: ls, decisions, db, s =>
    match s.val l with
    | some true => vivDecide ls decisions db s
    | some false => .done db s
    | none =>
      match Stk.propagateSandbox db (s.assignDecision l.neg) with
      | .ok db1 s1 => vivDecide ls (decisions ++ [l.neg]) db1 s1
      | .conflict db1 s1 cl r => .conflict db1 s1 (decisions ++ [l.neg]) cl r
      | .panic => .panic
      | .fuel => .fuel

/-- src/cdb/vivify.rs:82-116: the conflict is the target itself (`none`), or the conflicting literals are analyzed. -/
def vivConflicting (db : Cdb) (cid : Nat) (clits : Cls) (decisions : List Lit) (l : Lit) : Reason → Option (Option Cls)
  | .binary m =>
    if clits.length = 2 ∧ ∀ x ∈ clits, x ∈ [l, m.neg] then some none else some (some [l, m.neg])
  | .impl ci => if ci = cid ∧ clits.length = decisions.length then some none else some (some (db.clause ci).lits)
  | _ => none

/-- src/cdb/vivify.rs:117-140: what is done with the vivified clause `vec` (`s` is at the root level). -/
def vivApply (x : DS) (cid : Nat) (learnt : Bool) : Cls → Res DS
  | [] => .unsat x.1 x.2
  | [l] => x.2.assignRootRes (x.1.log (.add [l])) l
  | vec =>
    match x.1.newClause x.2.level vec learnt with
    | none => .panic
    | some (db1, _) => db1.removeRes x.2 cid

/-- src/cdb/vivify.rs:42-145 one target. -/
def vivOne (x : DS) (cid : Nat) : Res DS :=
  (propRemains (x.1, x.2.backtrackSandbox)).bind fun y =>
    if (y.1.clause cid).dead then .ok y
    else
      match vivDecide (y.1.clause cid).lits [] y.1 y.2 with
      | .done db s => .ok (db, s)
      | .panic => .panic
      | .fuel => .fuel
      | .conflict db s decisions l r =>
        match vivConflicting db cid (y.1.clause cid).lits decisions l r with
        | none => .panic
        | some none => .ok (db, s.backtrackSandbox)
        | some (some conf) =>
          match analyzeSandbox db s decisions conf with
          | none => .panic
          | some vec => vivApply (db, s.backtrackSandbox) cid (y.1.clause cid).learnt vec

/-- src/cdb/vivify.rs:41-149 the loop over the targets. -/
def vivLoop : List Nat → DS → Res DS
  | [], x => .ok x
  | cid :: cids, x => (vivOne x cid).bind (vivLoop cids)

/-- src/cdb/vivify.rs:18-185 `vivify`. -/
def vivify (targets : List Nat) (x : DS) : Res DS :=
  (propRemains x).bind fun x1 =>
    if targets = [] then .ok x1
    else (vivLoop targets x1).bind fun x2 => (propRemains (x2.1, x2.2.backtrackSandbox)).bind clearAsserted

end Splr
