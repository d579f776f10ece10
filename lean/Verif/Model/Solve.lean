import Verif.Model.Elim
import Verif.Model.Conflict
/-!
# The solver: `solve` and `search` of src/solver/search.rs

All heuristic choices are arguments (`Pre`, `Orc`, `StageOrc`), universally quantified in the theorems.
-/
namespace Splr

/-- The configuration: `config.enable_eliminator`, `config.elm_var_occ` (src/config.rs:74-83). -/
structure Cfg where
  enable : Bool := true
  evo : Nat := 20000

/-- src/solver/search.rs:93-121: the variables from `vi` on (`n` of them); variables with one polarity only are asserted.
A variable above `cnf + 1` has no occurrence list. -/
def pureLoop (cnf : Nat) (e : El) : Nat → Nat → DS → Res DS
  | 0, _, x => .ok x
  | n + 1, vi, x =>
    if x.2.assign vi ≠ none then pureLoop cnf e n (vi + 1) x
    else if cnf + 1 < vi then .panic
    else if e.aborted vi then pureLoop cnf e n (vi + 1) x
    else if e.neg vi = [] then
      (x.2.assignRootRes (x.1.log (.add [⟨vi, true⟩])) ⟨vi, true⟩).bind (pureLoop cnf e n (vi + 1))
    else if e.pos vi = [] then
      (x.2.assignRootRes (x.1.log (.add [⟨vi, false⟩])) ⟨vi, false⟩).bind (pureLoop cnf e n (vi + 1))
    else pureLoop cnf e n (vi + 1) x

/-- The choices made during preprocessing; `oom…`: the outcomes of `check_size`. -/
structure Pre where
  oom : Bool
  targets : List Nat
  oom1 : Bool
  cmds : List ECmd
  oom2 : Bool

/-- src/solver/search.rs:75-84, 127-135: an error of `simplify` is `OutOfMemory` if `check_size` fails. -/
def Res.orOom {α : Type} (r : Res α) (oom : Bool) : Res α :=
  match r with
  | .unsat db s => if oom then .err else .unsat db s
  | r => r

/-- src/solver/search.rs:47-158 the preprocessing part of `solve`. `simplify(_, _, _, true)` of the dormant eliminator only
propagates (src/processor/simplify.rs:260-306, 546-548). -/
def preprocess (cfg : Cfg) (o : Pre) (x : Sol) : Res Sol :=
  if o.oom then .err
  else
    (vivify o.targets (x.db, x.s)).bind fun x1 =>
      (((Stk.propagateSandbox x1.1 x1.2).toRes.bind fun z => if o.oom1 then .err else .ok z).orOom o.oom1).bind fun x2 =>
        (prepare cfg.enable cfg.evo x.cnf x2).bind fun y =>
          (pureLoop x.cnf y.2 y.1.2.numVars 1 y.1).bind fun x3 =>
            ((simplify cfg.enable cfg.evo o.cmds o.oom2 (x3, y.2)).orOom o.oom2).bind fun z =>
              .ok { x with db := z.1.1, s := z.1.2.rebuildOrder, store := x.store ++ z.2.lits }

/-- The choices of one stage change. -/
structure StageOrc where
  timeout : Bool
  cycle : Bool
  segment : Bool
  victims : List Nat
  targets : List Nat
  cmds : List ECmd
  oom : Bool

/-- The choices of one iteration of the main loop: the decision (`pick`, `phase`), the rank threshold and the rewards of the
trail saving (`q`, `low`), conflict handling (`rr`, `drift`), the stage change or restart after it. -/
structure Orc where
  pick : List Nat → Nat
  phase : Nat → Bool
  q : Nat
  low : Nat → Bool
  rr : Option Nat
  drift : Bool
  stage : Option StageOrc
  restart : Bool
  low2 : Nat → Bool

/-- `reduce` -/
def Cdb.reduceRes (db : Cdb) (s : Stk) (victims : List Nat) : Res DS :=
  match db.reduce s.level victims with
  | none => .panic
  | some db1 => .ok (db1, s)

/-- src/solver/search.rs:341-353 the elimination at the start of a segment. -/
def segmentElim (cfg : Cfg) (o : StageOrc) (x : Sol) : Res Sol :=
  (prepare cfg.enable cfg.evo x.cnf (x.db, x.s)).bind fun y =>
    (simplify cfg.enable cfg.evo o.cmds o.oom y).bind fun z =>
      .ok { x with db := z.1.1, s := z.1.2, store := x.store ++ z.2.lits }

/-- src/solver/search.rs:251-378 the end of a stage. -/
def stageStep (cfg : Cfg) (o : StageOrc) (low : Nat → Bool) (x : Sol) : Res Sol :=
  if o.timeout then .err
  else
    (clearAsserted (x.db, x.s.restart low)).bind fun x1 =>
      (x1.1.reduceRes x1.2 o.victims).bind fun x2 =>
        (if o.cycle then
          (vivify o.targets x2).bind fun x3 =>
            let y : Sol := { x with db := x3.1, s := x3.2 }
            if o.segment then segmentElim cfg o y else .ok y
        else .ok { x with db := x2.1, s := x2.2 }).bind fun y => .ok { y with s := y.s.clearSaved }

/-- src/assign/stack.rs (property NumUnassignedVar): a `usize` computed by subtractions; it is 0 exactly if this integer is. -/
def Stk.unassigned (s : Stk) : Int := (s.numVars : Int) - s.numAsserted - s.numElim - s.trail.length

/-- src/solver/search.rs:236 the condition of the main loop. -/
def Stk.running (s : Stk) : Bool := decide (s.unassigned ≠ 0) || s.remains

/-- src/solver/search.rs:237-240, src/assign/select.rs:130-155 the decision, if nothing remains to be propagated. -/
def decideStep (o : Orc) (s : Stk) : Option Stk :=
  if s.remains then some s
  else
    match Stk.selectVar o.pick s.selectFuel s with
    | none => none
    | some (v, s1) => some (s1.assignDecision ⟨v, o.phase v⟩)

/-- src/solver/search.rs:249-385 what follows a handled conflict. -/
def afterConflict (cfg : Cfg) (o : Orc) (x : Sol) : Res Sol :=
  match o.stage with
  | some st => stageStep cfg st o.low2 x
  | none => .ok (if o.restart then { x with s := x.s.restart o.low2 } else x)

/-- src/solver/search.rs:236-395 one iteration of the main loop. -/
def searchStep (cfg : Cfg) (o : Orc) (x : Sol) : Res Sol :=
  match decideStep o x.s with
  | none => .panic
  | some s =>
    match Stk.propagate o.q x.db s with
    | .ok db s1 => .ok { x with db := db, s := s1 }
    | .panic => .panic
    | .fuel => .fuel
    | .conflict db s1 l r =>
      if s1.dl = 0 then .unsat db s1
      else
        match handleConflict db s1 o.low o.rr o.drift l r with
        | .panic => .panic
        | .unsat db2 s2 => .unsat db2 s2
        | .ok db2 s2 => afterConflict cfg o { x with db := db2, s := s2 }

/-- src/solver/search.rs:223-422 `search`, up to as many iterations as there are choices given. -/
def search (cfg : Cfg) : List Orc → Sol → Res Sol
  | [], x => .ok x
  | o :: os, x => if x.s.running then (searchStep cfg o x).bind (search cfg os) else .ok x

/-- The answers of `solve`. `more`: the search goes on (the given choices are used up); `unsat` carries the clause database at
the end, for the certificate; `sat` the solver after the call. -/
inductive Ans where
  | sat (vals : List Int) (x : Sol)
  | unsat (db : Cdb)
  | err
  | panic
  | fuel
  | more (x : Sol)

/-- src/solver/search.rs:190-196: the model as integers; `none` = `unwrap` of a missing value. -/
def modelVals (m : Nat → Option Bool) (nv : Nat) : Option (List Int) :=
  (List.range nv).mapM fun i => (m (i + 1)).map fun b => (Lit.mk (i + 1) b).toInt

/-- src/solver/search.rs:163-206 the search has succeeded. -/
def finish (low : Nat → Bool) (x : Sol) : Ans :=
  match extendModel x.store x.s.assign with
  | none => .panic
  | some m =>
    match x.db.validate m false with
    | some _ => .err
    | none =>
      match modelVals m x.s.numVars with
      | none => .panic
      | some vals => .sat vals { x with s := { x.s with elim := fun v => if v = 0 then x.s.elim 0 else false }.restart low }

/-- src/solver/search.rs:47-219 `solve`. -/
def solve (cfg : Cfg) (p : Pre) (os : List Orc) (low : Nat → Bool) (x : Sol) : Ans :=
  match (preprocess cfg p x).bind (search cfg os) with
  | .ok y => if y.s.running then .more y else finish low y
  | .unsat db _ => .unsat db
  | .err => .err
  | .panic => .panic
  | .fuel => .fuel

end Splr
