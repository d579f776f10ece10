import Verif.Model.Dump
import Mathlib.Algebra.Order.Field.Basic
/-!
# Activities and phases of variables: src/assign/{learning_rate,select,trail_saving}.rs

They only influence choices, which are arguments of the model of the search (`Orc.pick`, `Orc.phase`, `Orc.low`). Here is
how the code makes them. `K` is any ordered field (the code has `f64`; rounding is not modelled).
-/
namespace Splr

section
variable {K : Type} [Field K]

/-- src/types/var.rs:9-31 `reward`, the flag `USED`; src/assign/stack.rs:92-97 `activity_decay`, `activity_anti_decay`. -/
structure Act (K : Type) where
  reward : Nat → K
  used : Nat → Bool
  decay : K
  anti : K

/-- src/assign/stack.rs:190-195, src/types/var.rs:33-52; `rat` is the option `vrw_dcy_rat`. -/
def Act.new (rat : K) : Act K := { reward := fun _ => 0, used := fun _ => false, decay := rat, anti := 1 - rat }

/-- src/assign/learning_rate.rs:18-20 `reward_at_analysis` -/
def Act.mark (a : Act K) (v : Nat) : Act K := { a with used := upd a.used v true }

/-- src/assign/learning_rate.rs:26-28 `reward_at_unassign`, 69-86 `update_activity` -/
def Act.unassign (a : Act K) (v : Nat) : Act K :=
  { a with reward := upd a.reward v (if a.used v then a.reward v * a.decay + a.anti else a.reward v * a.decay), used := upd a.used v false }

/-- src/assign/learning_rate.rs:29-32 `update_activity_decay`, src/solver/search.rs:275-279, 352-356; `base`: the number of stages
since the cycle began -/
def Act.setDecay (a : Act K) (base : Nat) : Act K :=
  { a with decay := (((20 + 2 * base : Nat) : K) - 1) / ((20 + 2 * base : Nat) : K),
           anti := 1 - (((20 + 2 * base : Nat) : K) - 1) / ((20 + 2 * base : Nat) : K) }

/-- src/assign/stack.rs:546, 560 `set_activity(vi, 0.0)` in `make_var_asserted` and `make_var_eliminated` -/
def Act.clear (a : Act K) (v : Nat) : Act K := { a with reward := upd a.reward v 0 }

/-- src/solver/search.rs:147-152; `act` is `1.0 / num_vars.powf(0.25)` -/
def Act.init (a : Act K) (elim : Nat → Bool) (nv : Nat) (act : K) : Act K :=
  { a with reward := fun v => if 1 ≤ v ∧ v < nv ∧ elim v = false then act else a.reward v }

/-- src/assign/trail_saving.rs:17-51 the variables for which `save_trail(to_lvl)` calls `reward_at_unassign`, in this order. -/
def Stk.rewarded (s : Stk) (lv : Nat) : List Nat :=
  let lim := s.lim.getD lv 0
  if 2 ≤ s.dl then
    let lim2 := s.lim.getD (s.dl - 2) 0
    (((s.trail.drop lim).take (lim2 - lim)).reverse ++ s.trail.drop lim2).map Lit.var
  else (s.trail.drop lim).map Lit.var

/-- src/assign/propagate.rs:197-301 `cancel_until(lv)`: the activities -/
def Act.cancel (a : Act K) (s : Stk) (lv : Nat) : Act K := if s.dl ≤ lv then a else (s.rewarded lv).foldl Act.unassign a

/-- src/assign/trail_saving.rs:24, 41-43: the argument `low` of `Stk.cancelUntil`: a saved variable with an activity below that of
the decision of the last level but one is not put into the queue. -/
def Act.low [LinearOrder K] (a : Act K) (s : Stk) (lv : Nat) (v : Nat) : Bool :=
  match s.trail[s.lim.getD (s.dl - 2) 0]? with
  | some l => decide ((a.cancel s lv).reward v < a.reward l.var)
  | none => false

/-- What happens to activities. -/
inductive ActEv (K : Type)
  /-- src/solver/conflict.rs:136-154, 306 -/
  | mark (v : Nat)
  | cancel (s : Stk) (lv : Nat)
  | setDecay (base : Nat)
  | clear (v : Nat)
  | init (elim : Nat → Bool) (nv : Nat) (act : K)

/-- One event. -/
def Act.step (a : Act K) : ActEv K → Act K
  | .mark v => a.mark v
  | .cancel s lv => a.cancel s lv
  | .setDecay base => a.setDecay base
  | .clear v => a.clear v
  | .init elim nv act => a.init elim nv act

end

/-! ## phases -/

/-- src/assign/stack.rs:38-45 `best_assign`, `num_best_assign`, `best_phases` (a map, here the list of its entries) and the
flag `PHASE` of the variables. -/
structure Ph where
  phase : Nat → Bool
  best : List (Nat × Bool)
  bestAssign : Bool
  numBest : Nat

/-- src/assign/stack.rs:117-126, src/types/var.rs:33-52 -/
def Ph.new : Ph := { phase := fun _ => false, best := [], bestAssign := false, numBest := 0 }

/-- src/assign/propagate.rs:557-561 the end of `propagate`, without a conflict -/
def Ph.propagated (p : Ph) (s : Stk) : Ph :=
  if p.numBest ≤ s.qhead + s.numElim + s.numAsserted ∧ 0 < s.dl then
    { p with bestAssign := true, numBest := s.qhead + s.numElim + s.numAsserted }
  else p

/-- src/assign/propagate.rs:809-826 `save_best_phases`; `len_upto(root_level)` is `lenUpto0` -/
def Ph.save (p : Ph) (s : Stk) : Ph :=
  { p with best := (s.trail.drop s.lenUpto0).filterMap fun l => (s.assign l.var).map fun b => (l.var, b) }

/-- src/assign/propagate.rs:197-204, 217-248 `cancel_until(lv)`: the phases -/
def Ph.cancel (p : Ph) (s : Stk) (lv : Nat) : Ph :=
  if s.dl ≤ lv then p
  else
    let p1 := if p.bestAssign then { p.save s with bestAssign := false } else p
    { p1 with phase := fun v => if v ∈ (s.trail.drop (s.lim.getD lv 0)).map Lit.var then (s.assign v).getD (p1.phase v) else p1.phase v }

/-- src/assign/select.rs:119-129 `check_consistency_of_best_phases` -/
def Ph.check (p : Ph) (s : Stk) : Ph :=
  if p.best.any (fun e => decide (s.assign e.1 = some !e.2)) then { p with best := [], numBest := s.numAsserted + s.numElim } else p

/-- src/assign/select.rs:98-117 `select_rephasing_target` -/
def Ph.rephase (p : Ph) (s : Stk) : Ph :=
  if p.best = [] then p
  else
    let p1 := p.check s
    if s.numVars - s.numAsserted - s.numElim ≤ p1.best.length then { p1 with best := [] }
    else { p1 with phase := fun v => (p1.best.lookup v).getD (p1.phase v) }

/-- src/assign/stack.rs:598-614 `check_best_phase`, called by `make_var_asserted`, in the state after the assignment -/
def Ph.asserted (p : Ph) (s : Stk) (v : Nat) : Ph :=
  match p.best.lookup v with
  | some b => if s.assign v ≠ some b ∧ s.level v = 0 then { p with best := [], numBest := s.numAsserted + s.numElim } else p
  | none => p

/-- src/solver/search.rs:117, 138-145: in preprocessing, phases are set by counting occurrences. -/
def Ph.preset (p : Ph) (v : Nat) (b : Bool) : Ph := { p with phase := upd p.phase v b }

/-- src/assign/select.rs:130-133 `select_decision_literal`, when the variable `v` has been selected -/
def Ph.decide (p : Ph) (v : Nat) : Lit := ⟨v, p.phase v⟩

/-- src/assign/mod.rs:243 `NumUnreachableVar`, the "unreachable core" of the progress report; `none`: underflow -/
def Ph.unreachable (p : Ph) (s : Stk) : Option Nat := if p.numBest ≤ s.numVars then some (s.numVars - p.numBest) else none

end Splr
