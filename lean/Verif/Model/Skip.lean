import Verif.Model.Full
/-!
# `skip_var_elimination`: src/processor/eliminate.rs:138-225

One value of the parameter `skip` of `Verif/Model/ElimLoop.lean`: the one of the code.
-/
namespace Splr

/-- src/processor/eliminate.rs:195-204 a literal of the first clause against the second one: `none` if its negation comes first, `false` if it is
counted. -/
def costLit (elim : Nat → Bool) (l : Lit) : Cls → Option Bool
  | [] => some false
  | m :: c => if l.neg = m then none else if l = m ∨ elim m.var = true then some true else costLit elim l c

/-- src/processor/eliminate.rs:195-205 the loop over the first clause, other than `v`; `none`: the resolvent is a tautology. -/
def costLoop (elim : Nat → Bool) (v : Nat) (q : Cls) : Cls → Nat → Option Nat
  | [], n => some n
  | l :: c, n =>
    if l.var = v then costLoop elim v q c n
    else
      match costLit elim l q with
      | none => none
      | some b => costLoop elim v q c (if b then n else n + 1)

/-- src/processor/eliminate.rs:181-225 `merge_cost`, 0 also where the code has `None`: both are passed over by the caller. -/
def mergeCost (elim : Nat → Bool) (v : Nat) (p q : Cls) : Nat :=
  match costLoop elim v q p 0 with
  | none => 0
  | some n =>
    if (p.any fun l => decide (l.var = v)) && (q.any fun l => decide (l.var = v)) then n + (q.filter fun l => decide (l.var ≠ v)).length else 0

/-- src/processor/eliminate.rs:153-172: `a / 2 ^ k` is the average after `k` resolvents. Simplification: the average is exact, the code computes
it in floating point; with COMBINATION_LIMIT = 32 (src/processor/eliminate.rs:8). -/
def skipLoop (bound : Nat) : List Nat → Nat → Nat → Bool
  | [], _, _ => false
  | n :: ns, k, a =>
    if n = 0 then skipLoop bound ns k a
    else if bound < k + 1 ∨ 32 * 2 ^ (k + 1) < a + n * 2 ^ k then true
    else skipLoop bound ns (k + 1) (a + n * 2 ^ k)

/-- src/processor/eliminate.rs:138-176 `skip_var_elimination`; `limit`: the limit of growth after `check_size`. -/
def skipVar (limit : Nat) (v : Nat) (y : DS × El) : Bool :=
  skipLoop ((y.2.pos v).length + (y.2.neg v).length + limit)
    ((y.2.pos v).flatMap fun i => (y.2.neg v).map fun j => mergeCost y.1.2.elim v (y.1.1.clause i).lits (y.1.1.clause j).lits) 0 0

/-- The default limits (src/processor/simplify.rs:29-31, src/config.rs:123), the budget `b`, and no time limit. -/
def stdCtl (b : Nat) : Ctl := { occ := 800, sub := 64, skip := skipVar 0, budget := fun _ => b, late := fun _ => false, flags := fun _ => false }

/-- Preprocessing with these. -/
def stdPre (b : Nat) : PreQ := { oom := false, targets := [], oom1 := false, ctl := stdCtl b, oom2 := false }

end Splr
