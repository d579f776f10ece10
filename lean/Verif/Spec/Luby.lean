/-!
# The Luby sequence (specification)

`blocks 0 = []`, `blocks (n+1) = blocks n ++ blocks n ++ [2^n]`; each `blocks n` is a prefix of the next one
and the Luby sequence is their limit: 1, 1, 2, 1, 1, 2, 4, 1, 1, 2, 1, 1, 2, 4, 8, ...
-/
namespace Splr.LubySpec

def blocks : Nat → List Nat
  | 0 => []
  | n + 1 => blocks n ++ blocks n ++ [2 ^ n]

/-- `x` is the `k`-th element (counting from 0) of the Luby sequence. -/
def IsLuby (k x : Nat) : Prop := ∃ n, (blocks n)[k]? = some x

end Splr.LubySpec

/-!
## The stage schedule (specification for src/solver/stage.rs)
-/
namespace Splr.LubySpec

/-- Element `k` (from 0) of the Luby sequence. -/
def lubyAt (k : Nat) : Nat := ((blocks (k + 1))[k]?).getD 0

/-- The number of ones among elements `1 .. k` of the Luby sequence (= the cycle number of stage `k`). -/
def ones : Nat → Nat
  | 0 => 0
  | k + 1 => ones k + (if lubyAt (k + 1) = 1 then 1 else 0)

/-- `ends unit i`: the number of learnt clauses at which stage `i` ends: stage 0 lasts `unit`, stage `i ≥ 1`
lasts `ones i * unit`. -/
def ends (unit : Nat) : Nat → Nat
  | 0 => unit
  | i + 1 => ends unit i + ones (i + 1) * unit

/-- The kind of stage `k ≥ 1`: a new cycle begins when the Luby element is 1; this cycle also begins a
new segment exactly when `k + 1` is a power of two. -/
def stageFlag (k : Nat) : Option Bool :=
  if lubyAt k = 1 then some (decide (2 ^ Nat.log2 (k + 1) = k + 1)) else none

end Splr.LubySpec
