import Mathlib.Algebra.Order.Field.Basic
import Mathlib.Algebra.Order.BigOperators.Group.List
import Mathlib.Algebra.BigOperators.Intervals
/-!
# Specification of averages

Independent of the code. `xs` is a sequence of inputs, the oldest first.
-/
namespace Splr.Avg

variable {K : Type} [Field K]

/-- The mean of the last `n` inputs; inputs before the first count as 0. -/
def windowMean (n : Nat) (xs : List K) : K := (xs.drop (xs.length - n)).sum / n

/-- The exponentially weighted average with factor `a` and initial value `v`: the input `k` steps ago has the weight
`a (1-a)^k`, the initial value what remains. -/
def expMean (a v : K) (xs : List K) : K :=
  (1 - a) ^ xs.length * v + ∑ k ∈ Finset.range xs.length, a * (1 - a) ^ k * xs.reverse.getD k 0

/-- The increments of a counter that started at `c`. -/
def increments (c : K) : List K → List K
  | [] => []
  | x :: xs => (x - c) :: increments x xs

end Splr.Avg
