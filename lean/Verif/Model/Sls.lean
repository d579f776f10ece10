import Verif.Model.Heur
import Mathlib.Algebra.Order.Field.Basic
import Mathlib.Algebra.BigOperators.Group.List.Basic
/-!
# Stochastic local search: src/cdb/sls.rs, and its use in src/solver/search.rs:294-347

The code is compiled with the default features but runs only with the feature `stochastic_local_search`. The assignment (a `HashMap`)
is a partial function; `K` stands for `f64`; the weights `beta.powf(-breaks)` are an arbitrary function `w` of the number of falsified
clauses and of the break count.
-/
namespace Splr

/-- src/cdb/sls.rs:94-109 the loop of `is_falsified`: `none` = `unreachable!`, `some none` = early `return false`, otherwise the number
of true literals (at most one) and the variable of the last one. -/
def falsLoop (a : Nat → Option Bool) : Cls → Nat → Nat → Option (Option (Nat × Nat))
  | [], n, v => some (some (n, v))
  | l :: c, n, v =>
    match a l.var with
    | none => none
    | some b => if b = l.pos then (if n = 1 then some none else falsLoop a c (n + 1) l.var) else falsLoop a c n v

/-- `flip_target` -/
abbrev FlipMap := Nat → Option Nat

/-- src/cdb/sls.rs:88-117 `is_falsified`; `none` = panic. -/
def isFalsified (a : Nat → Option Bool) (c : Cls) (ft : FlipMap) : Option (Bool × FlipMap) :=
  match falsLoop a c 0 0 with
  | none => none
  | some none => some (false, ft)
  | some (some (n, v)) => if n = 0 then some (true, ft) else some (false, upd ft v (some ((ft v).getD 0 + 1)))

/-- `entry(vi).or_insert(0)` -/
def FlipMap.touch (ft : FlipMap) (c : Cls) : FlipMap := fun v => if v ∈ c.map Lit.var then some ((ft v).getD 0) else ft v

/-- src/cdb/sls.rs:38-53 the loop over the clauses: the number of falsified ones, the break counts and the target clause. -/
def slsScan (a : Nat → Option Bool) (step : Nat) : List Cls → Nat × FlipMap × Option Cls → Option (Nat × FlipMap × Option Cls)
  | [], r => some r
  | c :: cs, (u, ft, t) =>
    match isFalsified a c ft with
    | none => none
    | some (false, ft1) => slsScan a step cs (u, ft1, t)
    | some (true, ft1) =>
      if t = none ∨ u + 1 = step then slsScan a step cs (u + 1, ft1.touch c, some c) else slsScan a step cs (u + 1, ft1, t)

/-- `!x & 0x0000_0000_ffff_ffff` -/
def low32Not (x : Nat) : Nat := 2 ^ 32 - 1 - x % 2 ^ 32

/-- src/cdb/sls.rs:62-64 the next seed. -/
def nextSeed (seed lastFlip : Nat) : Nat := ((low32Not seed * 1304003 % 2003819) ^^^ (low32Not lastFlip * seed)) % 3754873

section
variable {K : Type} [Field K] [LinearOrder K]

/-- src/cdb/sls.rs:70-79 the loop over the variables of the target clause. -/
def pickLoop (f : Nat → K) (index : K) : List Nat → K → Option Nat
  | [], _ => none
  | v :: vs, sum => if index ≤ sum + f v then some v else pickLoop f index vs (sum + f v)

/-- src/cdb/sls.rs:66-79: the variable to flip; the outer `none` = panic (`unwrap`). -/
def pickVar (w : Nat → K) (ft : FlipMap) (seed : Nat) (c : Cls) : Option (Option Nat) :=
  if c.any (fun l => (ft l.var).isNone) then none
  else
    let f := fun v => w ((ft v).getD 0)
    let vars := c.map Lit.var
    some (pickLoop f (((seed % 100 : Nat) : K) / 100 * (vars.map f).sum) vars 0)

/-- `assignment.entry(v).and_modify(|e| *e = !*e)` -/
def flip (a : Nat → Option Bool) (v : Nat) : Nat → Option Bool := fun x => if x = v then (a v).map (!·) else a x

/-- src/cdb/sls.rs:31-84 the loop over the steps; `n` steps are left. `none` = panic. -/
def slsLoop (w : Nat → Nat → K) (cls : List Cls) (limit : Nat) : Nat → Nat → Nat → Nat → Nat × Nat → (Nat → Option Bool) →
    Option ((Nat × Nat) × (Nat → Option Bool))
  | 0, _, _, _, ret, a => some (ret, a)
  | n + 1, step, seed, lastFlip, ret, a =>
    match slsScan a step cls (0, fun _ => none, none) with
    | none => none
    | some (u, ft, t) =>
      let ret := (if step = 1 then u else ret.1, u)
      if u = 0 ∨ step = limit then some (ret, a)
      else
        match t with
        | none => some (ret, a)
        | some c =>
          match pickVar (w u) ft (nextSeed seed lastFlip) c with
          | none => none
          | some none => slsLoop w cls limit n (step + 1) (nextSeed seed lastFlip) lastFlip ret a
          | some (some v) => slsLoop w cls limit n (step + 1) (nextSeed seed lastFlip) v ret (flip a v)

/-- The clauses that are not dead, in the order of the vector. -/
def Cdb.liveCls (db : Cdb) : List Cls := (((List.range (db.len - 1)).map (· + 1)).map fun i => (db.clause i).lits).filter (· ≠ [])

/-- src/cdb/sls.rs:21-86 `stochastic_local_search` -/
def Cdb.sls (w : Nat → Nat → K) (db : Cdb) (a : Nat → Option Bool) (limit : Nat) : Option ((Nat × Nat) × (Nat → Option Bool)) :=
  slsLoop w db.liveCls limit limit 1 721109 db.numClause.toNat (0, 0) a

end

/-- src/assign/select.rs:54-72 `best_phases_ref(Some(false))`, over all of `var` (the unused index 0 included). -/
def Ph.ref (p : Ph) (s : Stk) (v : Nat) : Option Bool :=
  if v ≤ s.numVars then
    some (if s.level v = 0 ∨ s.elim v = true then false else (p.best.lookup v).getD ((s.assign v).getD (p.phase v)))
  else none

/-- `best_phases.insert(v, b)` -/
def insertPhase (best : List (Nat × Bool)) (v : Nat) (b : Bool) : List (Nat × Bool) := (v, b) :: best.filter (·.1 ≠ v)

/-- src/assign/select.rs:74-83 `override_rephasing_target`, for the entries `es` of the map in some order -/
def Ph.override (p : Ph) (es : List (Nat × Bool)) : Ph :=
  { p with best := es.foldl (fun best e => if best.lookup e.1 = some e.2 then best else insertPhase best e.1 e.2) p.best }

/-- The entries of a map with the keys 0 to `n`. -/
def entriesUpto (n : Nat) (a : Nat → Option Bool) : List (Nat × Bool) := (List.range (n + 1)).filterMap fun v => (a v).map fun b => (v, b)

end Splr
