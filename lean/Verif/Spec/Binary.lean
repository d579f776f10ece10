import Verif.Spec.State
/-!
# Clauses of two literals (specification)
-/
namespace Splr

/-- A clause of these two literals is held. -/
def Pair (db : Cdb) (a b : Lit) : Prop := Held db [a, b] ∨ Held db [b, a]

/-- Nothing is left to do for the clauses of two literals: if one literal is false, the other is true. -/
def AtRest (db : Cdb) (a : Nat → Option Bool) : Prop :=
  ∀ x y, Pair db x y → a x.var = some (!x.pos) → a y.var = some y.pos

/-- `c` is a resolvent of two held clauses of two literals. -/
def BiResolvent (db : Cdb) (c : Cls) : Prop := ∃ a b d, c = [a, d] ∧ a.var ≠ d.var ∧ Pair db a b ∧ Pair db b.neg d

end Splr
