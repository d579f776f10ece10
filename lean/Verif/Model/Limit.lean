import Mathlib.Data.Rat.Floor
/-!
# The time limit: src/state.rs:391-399, src/solver/search.rs:255-262

Seconds are rational numbers; the rounding of `f64` is not modelled (division is exact), NaN and the infinities are.
-/
namespace Splr.Limit

/-- `f64` -/
inductive F where
  | nan
  | negInf
  | posInf
  | val (q : ℚ)
deriving DecidableEq

/-- `x as u64` for `x: f64`: towards zero, saturating, 0 for NaN. -/
def F.asU64 : F → Nat
  | .nan => 0
  | .negInf => 0
  | .posInf => 2 ^ 64 - 1
  | .val q => min ⌊q⌋.toNat (2 ^ 64 - 1)

/-- `x / y` for numbers of seconds, both not negative -/
def F.quot (x y : ℚ) : F := if y = 0 then (if x = 0 then .nan else .posInf) else .val (x / y)

/-- `1.0 <= p` -/
def F.oneLe : F → Bool
  | .nan => false
  | .negInf => false
  | .posInf => true
  | .val q => decide (1 ≤ q)

/-- src/state.rs:394-399 `elapsed`: `t` nanoseconds after the start with the limit `limit` (`c_timeout`). -/
def elapsed (limit : F) (t : Nat) : F := F.quot ((t : ℚ) / 1000000000) (limit.asU64 : ℚ)

/-- src/solver/search.rs:255-258 at the end of a stage: is it `Err(TimeOut)`? -/
def timesOut (limit : F) (t : Nat) : Bool := (elapsed limit t).oneLe

/-- src/state.rs:391-393 `is_timeout` (`Duration`s are compared exactly). -/
def isTimeout (limit : F) (t : Nat) : Bool := decide (limit.asU64 * 1000000000 < t)

end Splr.Limit
