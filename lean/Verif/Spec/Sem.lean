/-!
# Propositional semantics (specification)

Independent of the solver: literals, clauses, formulas, total assignments, satisfaction, entailment.
Every semantic property theorem is stated with these few definitions.
-/
namespace Splr

/-- A literal: a variable (numbered from 1 in DIMACS and in splr) and a sign (`true` = positive). -/
structure Lit where
  var : Nat
  pos : Bool
deriving DecidableEq, Repr, Inhabited

/-- The complementary literal. -/
def Lit.neg (l : Lit) : Lit := ⟨l.var, !l.pos⟩

/-- The literal written as the non-zero DIMACS integer `x`. -/
def Lit.ofInt (x : Int) : Lit := ⟨x.natAbs, decide (0 < x)⟩

/-- The DIMACS integer of a literal. -/
def Lit.toInt (l : Lit) : Int := if l.pos then (l.var : Int) else -(l.var : Int)

/-- A clause is a list of literals read as a disjunction; a formula is a list of clauses. -/
abbrev Cls := List Lit
abbrev Form := List Cls

/-- The clause written as a list of non-zero DIMACS integers. -/
def clsOf (v : List Int) : Cls := v.map Lit.ofInt

/-- A total assignment. -/
abbrev Asg := Nat → Bool

/-- `l` is true under `a`. -/
def Lit.sat (a : Asg) (l : Lit) : Prop := a l.var = l.pos

/-- Some literal of the clause is true. -/
def Cls.sat (a : Asg) (c : Cls) : Prop := ∃ l ∈ c, l.sat a

/-- All clauses are true. -/
def Form.sat (a : Asg) (F : Form) : Prop := ∀ c ∈ F, Cls.sat a c

def Form.Satisfiable (F : Form) : Prop := ∃ a, Form.sat a F

/-- `F` entails `c`: every model of `F` satisfies `c`. -/
def Form.Entails (F : Form) (c : Cls) : Prop := ∀ a, Form.sat a F → Cls.sat a c

/-- Two formulas with the same models. -/
def Form.Equiv (F G : Form) : Prop := ∀ a, Form.sat a F ↔ Form.sat a G

/-- The formula only uses the variables `1..n`. -/
def Rng (F : Form) (n : Nat) : Prop := ∀ c ∈ F, ∀ l ∈ c, 1 ≤ l.var ∧ l.var ≤ n

/-- The total assignment described by a list of integers: a variable is true if it is listed positively. -/
def valsAsg (vals : List Int) : Asg := fun v => decide ((v : Int) ∈ vals)

/-- The list of integers is a total assignment of the variables `1..nv`, in order: one literal for each. -/
def Canonical (vals : List Int) (nv : Nat) : Prop :=
  vals.length = nv ∧ ∀ i (hi : i < vals.length), vals[i] = ((i + 1 : Nat) : Int) ∨ vals[i] = -((i + 1 : Nat) : Int)

instance (a : Asg) (l : Lit) : Decidable (l.sat a) := inferInstanceAs (Decidable (_ = _))
instance (a : Asg) (c : Cls) : Decidable (Cls.sat a c) := inferInstanceAs (Decidable (∃ l ∈ c, l.sat a))
instance (a : Asg) (F : Form) : Decidable (Form.sat a F) := inferInstanceAs (Decidable (∀ c ∈ F, Cls.sat a c))

@[simp] theorem Lit.neg_var (l : Lit) : l.neg.var = l.var := rfl
@[simp] theorem Lit.neg_pos (l : Lit) : l.neg.pos = !l.pos := rfl
@[simp] theorem Lit.neg_neg (l : Lit) : l.neg.neg = l := by cases l; simp [Lit.neg]

theorem Lit.neg_ne (l : Lit) : l.neg ≠ l := by
  intro h; have := congrArg Lit.pos h; simp at this

theorem Lit.ne_neg (l : Lit) : l ≠ l.neg := fun h => l.neg_ne h.symm

theorem Lit.neg_inj {l m : Lit} : l.neg = m.neg ↔ l = m :=
  ⟨fun h => by have := congrArg Lit.neg h; simpa using this, fun h => by rw [h]⟩

theorem Lit.eq_or_eq_neg_of_var {l m : Lit} (h : l.var = m.var) : l = m ∨ l = m.neg := by
  cases l; cases m; simp_all [Lit.neg]
  rename_i a _ b; cases a <;> cases b <;> simp

@[simp] theorem Lit.sat_neg (a : Asg) (l : Lit) : l.neg.sat a ↔ ¬ l.sat a := by
  unfold Lit.sat; cases h : a l.var <;> cases h' : l.pos <;> simp [h, h']

end Splr
