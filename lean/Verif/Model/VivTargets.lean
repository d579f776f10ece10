import Verif.Model.Vivify
import Mathlib.Algebra.Order.Ring.Rat
import Mathlib.Algebra.Order.Monoid.WithTop
/-!
# Which clauses are vivified: src/cdb/vivify.rs:17-185 `vivify`, 184-238 `select_targets`, 345-368 `to_vivify`

`used` stands for the field `used` of the clauses. Values of type `f64` are rational numbers or infinite.
-/
namespace Splr

/-- src/cdb/vivify.rs:347-368 `to_vivify(Some(n))`: the negation of the returned value, which is what `new_invert` stores. The rank may be
0, then the quotient is infinite. -/
def laterKey (n : Nat) (c : Cl) (used : Nat) : Option (WithTop ℚ) :=
  if n = 0 then
    if c.dead = false ∧ c.rank ≤ 4 then
      some (if c.rank = 0 then ⊤ else ((((c.lits.length : ℚ) - c.rank) / c.rank : ℚ) : WithTop ℚ))
    else none
  else if c.dead = false ∧ c.rank = n ∧ 4 ≤ used then
    some (if c.rank < c.lits.length then (((c.lits.length : ℚ) / c.rank : ℚ) : WithTop ℚ) else 0)
  else none

/-- src/cdb/vivify.rs:212-227 the candidates of a later stage: key and clause id. -/
def laterAll (db : Cdb) (used : Nat → Nat) (n : Nat) : List (WithTop ℚ × Nat) :=
  ((List.range (db.len - 1)).map (· + 1)).filterMap fun i =>
    (laterKey n (db.clause i) (used i)).bind fun k => if k = 0 then none else some (k, i)

/-- src/cdb/vivify.rs:209-237 `select_targets` after the first restart. -/
def laterTargets (db : Cdb) (used : Nat → Nat) (n maxLen : Nat) : List (WithTop ℚ × Nat) :=
  let cs := laterAll db used n
  if maxLen < cs.length then (cs.mergeSort fun a b => decide (a.1 ≤ b.1)).take maxLen else cs

/-- src/cdb/vivify.rs:193-200: for each literal, a clause that begins with it. -/
def firstTable (db : Cdb) : List Nat → (Lit → Option (Nat × Nat)) → Lit → Option (Nat × Nat)
  | [], t => t
  | i :: is, t =>
    match (db.clause i).lits with
    | [] => firstTable db is t
    | l0 :: tl =>
      if ((t l0).map Prod.fst).getD 0 < (l0 :: tl).length then firstTable db is (upd t l0 (some ((l0 :: tl).length, i)))
      else firstTable db is t

/-- src/cdb/vivify.rs:201: the entries of the table in the order of the literals. -/
def firstAll (db : Cdb) (nv : Nat) : List (Nat × Nat) :=
  (List.range (2 * (nv + 1))).filterMap fun k => firstTable db ((List.range (db.len - 1)).map (· + 1)) (fun _ => none) ⟨k / 2, k % 2 == 1⟩

/-- src/cdb/vivify.rs:191-208 `select_targets` before the first restart. -/
def firstTargets (db : Cdb) (nv maxLen : Nat) : List (Nat × Nat) :=
  let cs := firstAll db nv
  if 10 * maxLen < cs.length then (cs.mergeSort fun a b => decide (a.1 ≤ b.1)).take maxLen else cs

/-- How the attempt to vivify a clause ended: the clause was deleted, there was no conflict, there was one. -/
inductive Tried where
  | dead
  | rest
  | hit
deriving DecidableEq, Repr

/-- src/cdb/vivify.rs:42-145, as `vivOne`; also how it ended. -/
def vivTry (x : DS) (cid : Nat) : Res (DS × Tried) :=
  (propRemains (x.1, x.2.backtrackSandbox)).bind fun y =>
    if (y.1.clause cid).dead then .ok (y, .dead)
    else
      match vivDecide (y.1.clause cid).lits [] y.1 y.2 with
      | .done db s => .ok ((db, s), .rest)
      | .panic => .panic
      | .fuel => .fuel
      | .conflict db s decisions l r =>
        match vivConflicting db cid (y.1.clause cid).lits decisions l r with
        | none => .panic
        | some none => .ok ((db, s.backtrackSandbox), .hit)
        | some (some conf) =>
          match analyzeSandbox db s decisions conf with
          | none => .panic
          | some vec => (vivApply (db, s.backtrackSandbox) cid (y.1.clause cid).learnt vec).bind fun z => .ok (z, .hit)

/-- src/cdb/vivify.rs:41-149 the loop over the targets, with the number of attempts `n` (`num_check`) and the limit. -/
def vivLoopLim (limit : Nat) : List Nat → Nat → DS → Res DS
  | [], _, x => .ok x
  | cid :: cids, n, x =>
    (vivTry x cid).bind fun y =>
      match y.2 with
      | .dead => vivLoopLim limit cids n y.1
      | .hit => vivLoopLim limit cids (n + 1) y.1
      | .rest => if limit < n + 1 then .ok y.1 else vivLoopLim limit cids (n + 1) y.1

/-- src/cdb/vivify.rs:17-185 `vivify`: `first` = no restart yet, `n` = the number of vivifications modulo 32. The targets are popped from
the end. -/
def vivifyAll (limit : Nat) (first : Bool) (n : Nat) (used : Nat → Nat) (x : DS) : Res DS :=
  (propRemains x).bind fun x1 =>
    let ts := (if first then (firstTargets x1.1 x1.2.numVars limit).map Prod.snd else (laterTargets x1.1 used n limit).map Prod.snd).reverse
    if ts = [] then .ok x1
    else (vivLoopLim limit ts 0 x1).bind fun x2 => (propRemains (x2.1, x2.2.backtrackSandbox)).bind clearAsserted

end Splr
