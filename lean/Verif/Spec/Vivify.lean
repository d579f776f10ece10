import Verif.Spec.State
/-!
# Candidates for vivification (specification)
-/
namespace Splr

/-- May be vivified in stage `n`: for `n > 0` the clauses of rank `n` that were used at least 4 times and are longer than their
rank, for `n = 0` all those of rank at most 4 and of another length. -/
def Probed (n : Nat) (c : Cl) (used : Nat) : Prop :=
  c.lits ≠ [] ∧ if n = 0 then c.rank ≤ 4 ∧ c.rank ≠ c.lits.length else c.rank = n ∧ 4 ≤ used ∧ c.rank < c.lits.length

instance (n : Nat) (c : Cl) (used : Nat) : Decidable (Probed n c used) := by unfold Probed; infer_instance

/-- Vivifying `c` promises more than vivifying `d`: it has more literals in proportion to its rank. -/
def Better (c d : Cl) : Prop := d.lits.length * c.rank < c.lits.length * d.rank

instance (c d : Cl) : Decidable (Better c d) := by unfold Better; infer_instance

end Splr
