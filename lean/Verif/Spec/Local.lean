import Verif.Spec.Sem
/-!
# Local search (specification)

Assignments are partial here: the search works on a map from variables to values.
-/
namespace Splr

/-- All literals of the clause are false. -/
def Falsified (a : Nat → Option Bool) (c : Cls) : Prop := ∀ l ∈ c, a l.var = some (!l.pos)

instance (a : Nat → Option Bool) (c : Cls) : Decidable (Falsified a c) := by unfold Falsified; infer_instance

/-- How many of the clauses are false. -/
def numFalsified (a : Nat → Option Bool) (cls : List Cls) : Nat := cls.countP fun c => decide (Falsified a c)

/-- The assignment with the other value for `v`. -/
def flipped (a : Nat → Option Bool) (v : Nat) : Nat → Option Bool := fun x => if x = v then (a x).map (!·) else a x

/-- How many clauses become false if `v` is flipped. -/
def numBroken (a : Nat → Option Bool) (cls : List Cls) (v : Nat) : Nat :=
  cls.countP fun c => decide (¬ Falsified a c ∧ Falsified (flipped a v) c)

/-- `n` steps of a focused walk: each flips a variable of a clause that is false at that moment. -/
inductive Walk (cls : List Cls) : Nat → (Nat → Option Bool) → (Nat → Option Bool) → Prop
  | here (a : Nat → Option Bool) : Walk cls 0 a a
  | step {n : Nat} {a b : Nat → Option Bool} {c : Cls} {l : Lit} (hc : c ∈ cls) (hf : Falsified a c) (hl : l ∈ c) (h : Walk cls n (flipped a l.var) b) :
      Walk cls (n + 1) a b

/-- Every variable of the clauses has a value. -/
def Covers (a : Nat → Option Bool) (cls : List Cls) : Prop := ∀ c ∈ cls, ∀ l ∈ c, a l.var ≠ none

instance (a : Nat → Option Bool) (cls : List Cls) : Decidable (Covers a cls) := by unfold Covers; infer_instance

end Splr
