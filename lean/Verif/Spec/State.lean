import Verif.Model.Reach
/-!
# What a state of the solver says (specification)

The few notions with which the properties of the search are stated. They only read the clauses and the assignment.
-/
namespace Splr

/-- `l` is true. -/
def Holds (s : Stk) (l : Lit) : Prop := s.assign l.var = some l.pos

/-- `l` is false. -/
def Fails (s : Stk) (l : Lit) : Prop := s.assign l.var = some (!l.pos)

/-- The variable of `l` has no value. -/
def Open (s : Stk) (l : Lit) : Prop := s.assign l.var = none

/-- `l` is true, for good. -/
def Fact (s : Stk) (l : Lit) : Prop := Holds s l ∧ s.level l.var = 0

/-- The solver holds the clause `c`. -/
def Held (db : Cdb) (c : Cls) : Prop := c ≠ [] ∧ ∃ cid, (db.clause cid).lits = c

/-- A model of the clauses and facts the solver holds. -/
def IsModel (db : Cdb) (s : Stk) (b : Asg) : Prop := (∀ c, Held db c → Cls.sat b c) ∧ ∀ l, Fact s l → l.sat b

/-- The clause `c` that the reason `r` of `l` names: either a clause with its identifier or, for a clause of two literals, the
other literal (negated). -/
def Names (db : Cdb) (l : Lit) (r : Reason) (c : Cls) : Prop :=
  match r with
  | .impl cid => c = (db.clause cid).lits
  | .binary m => c = [l, m.neg] ∨ c = [m.neg, l]
  | _ => False

/-- `l` is a decision. -/
def Decision (s : Stk) (l : Lit) : Prop := Holds s l ∧ s.reason l.var = .decision (s.level l.var) ∧ 0 < s.level l.var

end Splr
