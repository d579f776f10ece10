import Verif.Lemmas.QueueBuild
import Verif.Props.C52_Ends
/-!
# C78, C79: the solver with the array queue and range checks

`SolQ` (Verif/Model/QueueSolve.lean) is the solver in which the queue of the variables is the one of the code: an array heap with an index of positions
(Verif/Model/Heap.lean), and in which the accesses to the arrays of variables and clauses are checked. `BuiltQ F x`: the solver `x` was constructed and given `F`.
The activities of the variables are arbitrary at each operation on the queue.
-/
namespace Splr
open Stk QStk Heap

/-! ## runs for the examples -/

/-- Activities: the order of the numbers, turned around at every second operation. -/
def exAct (k u v : Nat) : Bool := if k % 2 = 0 then decide (u < v) else decide (v < u)

/-- Successful calls of `add_clause`. -/
def addAllQ : SolQ → List (List Int) → Option SolQ
  | x, [] => some x
  | x, c :: cs =>
    match x.addClause c with
    | some (y, none) => addAllQ y cs
    | _ => none

theorem BuiltQ.addAll : ∀ {cs : List (List Int)} {F : Form} {x y : SolQ}, BuiltQ F x → addAllQ x cs = some y → BuiltQ (F ++ cs.map clsOf) y
  | [], F, x, y, h, e => by simp only [addAllQ, Option.some.injEq] at e; subst e; simpa using h
  | c :: cs, F, x, y, h, e => by
    unfold addAllQ at e
    split at e
    · rename_i z hz
      have := BuiltQ.addAll (BuiltQ.addClause h hz) e
      simpa using this
    · simp at e

/-- The solver with `nv` variables given `cs`. -/
def exSolverQ (nv : Nat) (cs : List (List Int)) : SolQ := (addAllQ (SolQ.new nv exAct) cs).getD (SolQ.new nv exAct)

theorem exBuiltQ {nv : Nat} {cs : List (List Int)} (h : (addAllQ (SolQ.new nv exAct) cs).isSome = true) : BuiltQ (cs.map clsOf) (exSolverQ nv cs) := by
  obtain ⟨y, hy⟩ := Option.isSome_iff_exists.1 h
  have := (BuiltQ.new nv exAct).addAll hy
  rw [List.nil_append] at this
  unfold exSolverQ; rw [hy]; exact this

theorem HeadQ.search {cfg : Cfg} {F : Form} : ∀ {os : List Orc} {x y : SolQ}, HeadQ cfg F x → searchQ cfg os x = .ok y → HeadQ cfg F y
  | [], x, y, h, e => by cases e; exact h
  | o :: os, x, y, h, e => by
    unfold searchQ at e
    split at e
    · rename_i hr
      cases hs : searchStepQ cfg o x with
      | ok z => rw [hs] at e; exact HeadQ.search (.step h hr hs) e
      | _ => rw [hs] at e; cases e
    · cases e; exact h

/-- The state after preprocessing and as many iterations as there are choices. -/
def headQ (p : Pre) (os : List Orc) (x : SolQ) : Option SolQ :=
  match (preprocessQ {} p x).bind (searchQ {} os) with
  | .ok y => some y
  | _ => none

theorem HeadQ.of {F : Form} {p : Pre} {os : List Orc} {x y : SolQ} (h : BuiltQ F x) (e : headQ p os x = some y) : HeadQ {} F y := by
  unfold headQ at e
  cases hp : preprocessQ {} p x with
  | ok z =>
    rw [hp] at e
    simp only [ResQ.bind] at e
    split at e
    · rename_i w hw
      cases e
      exact HeadQ.search (.start h hp) hw
    · cases e
  | _ => rw [hp] at e; cases e

/-! ## C78 -/

/-- **C78.** At the beginning of every iteration of the main loop the array queue is consistent, and every variable that has no value and is not eliminated
is queued, or is on the saved trail. -/
theorem C78_queue_is_exact {cfg : Cfg} {F : Form} {x : SolQ} (h : HeadQ cfg F x) :
    ∃ S : Nat → Prop, Represents x.x.q S (x.x.s.numVars + 1) ∧
      ∀ v, 1 ≤ v → v ≤ x.x.s.numVars → x.x.s.assign v = none → x.x.s.elim v = false → S v ∨ v ∈ x.x.s.saved.map Lit.var := by
  obtain ⟨y, hy, hr⟩ := h.sim
  obtain ⟨F', -, h1⟩ := hy.sok
  obtain ⟨hp, e⟩ := hr.rel.of
  refine ⟨(· ∈ y.s.heap), ?_, fun v v1 v2 ha he => ?_⟩
  · rw [e]; exact hr.rel.rep
  · rw [e] at v2 ha he ⊢
    exact h1.heap v ⟨v1, v2, he⟩ ha

/-- **C78.** As long as the search goes on and nothing remains to be propagated, `select_var` finds in the array queue a variable of the instance that has no
value and is not eliminated, and it is decided with its saved phase at a new level; nothing else is assigned, and the queue remains consistent. If something
remains to be propagated, nothing is decided. -/
theorem C78_decisions {cfg : Cfg} {F : Form} {x : SolQ} (h : HeadQ cfg F x) (hr : x.x.s.running = true) (phase : Nat → Bool) :
    (x.x.s.remains = true → x.x.decideStepQ phase = some x.x) ∧
    (x.x.s.remains = false → ∃ v x', x.x.decideStepQ phase = some x' ∧ 1 ≤ v ∧ v ≤ x.x.s.numVars ∧ x.x.s.assign v = none ∧ x.x.s.elim v = false ∧
      Decision x'.s ⟨v, phase v⟩ ∧ x'.s.level v = x'.s.dl ∧ x'.s.dl = x.x.s.dl + 1 ∧ x'.s.trail = x.x.s.trail ++ [⟨v, phase v⟩] ∧
      (∀ w, w ≠ v → x'.s.assign w = x.x.s.assign w) ∧
      ∃ S : Nat → Prop, Represents x'.q S (x.x.s.numVars + 1) ∧
        ∀ w, 1 ≤ w → w ≤ x.x.s.numVars → x'.s.assign w = none → x.x.s.elim w = false → S w ∨ w ∈ x'.s.saved.map Lit.var) := by
  refine ⟨fun hm => if_pos hm, fun hm => ?_⟩
  obtain ⟨y, hy, hs⟩ := h.sim
  obtain ⟨hp, e⟩ := hs.rel.of
  have hr' : y.s.running = true := by rw [e] at hr; exact hr
  have hm' : y.s.remains = false := by rw [e] at hm; exact hm
  obtain ⟨pick, s, x', e1, e2, h1⟩ := decide_sim hy hr' hs.rel { plainOrc with phase := phase }
  obtain ⟨-, c2, -⟩ := C14_decisions hy
  obtain ⟨v, s', d1, d2, d3, d4, d5, d6, d7, d8, d9, d10⟩ := c2 hr' hm' { plainOrc with phase := phase, pick := pick }
  rw [e1] at d1
  cases d1
  obtain ⟨hp', e'⟩ := h1.of
  obtain ⟨F', -, hsk⟩ := hy.sok
  obtain ⟨-, t1, -⟩ := decideStep_spec (k := true) (r := false) hsk.pinv hsk.dom e1
  have hnv : s.numVars = y.s.numVars := t1.sp.numVars
  have hh : HeapOK s := t1.sp.heap hsk.heap
  refine ⟨v, x', e2, d2, by rw [e]; exact d3, by rw [e]; exact d4, by rw [e]; exact d5, by rw [e']; exact d6, by rw [e']; exact d7,
    by rw [e, e']; exact d8, by rw [e, e']; exact d9, by rw [e, e']; exact d10, (· ∈ s.heap), ?_, fun w w1 w2 ha he => ?_⟩
  · have := h1.rep
    rw [hnv] at this
    rw [e]; exact this
  · rw [e] at w2 he
    rw [e'] at ha ⊢
    exact hh w (t1.sp.okv.2 ⟨w1, w2, he⟩) ha

/-- Such states are met: after two decisions the queue holds what is left, and another variable can be decided. -/
example : ∃ x, HeadQ {} ([[1, 2, 3], [-1, -2, 4], [3, 4, 5], [-3, -5, 6]].map clsOf) x ∧ x.x.s.running = true ∧ x.x.s.remains = false ∧ x.x.s.dl = 2 ∧
    x.x.s.trail.map Lit.var = [4, 6, 3, 5] ∧ x.x.q.len = 2 ∧ ∃ z, x.x.decideStepQ (fun _ => true) = some z ∧ z.s.trail.map Lit.var = [4, 6, 3, 5, 1] := by
  have h : ((headQ plainPre (List.replicate 2 plainOrc) (exSolverQ 6 [[1, 2, 3], [-1, -2, 4], [3, 4, 5], [-3, -5, 6]])).map fun x =>
      (x.x.s.running && !x.x.s.remains && decide (x.x.s.dl = 2) && decide (x.x.s.trail.map Lit.var = [4, 6, 3, 5]) && decide (x.x.q.len = 2) &&
        decide ((x.x.decideStepQ fun _ => true).map (fun z => z.s.trail.map Lit.var) = some [4, 6, 3, 5, 1]))) = some true := by decide +kernel
  obtain ⟨x, hx, h⟩ := Option.map_eq_some_iff.1 h
  simp only [Bool.and_eq_true, decide_eq_true_eq, Bool.not_eq_true', Option.map_eq_some_iff] at h
  obtain ⟨⟨⟨⟨⟨h1, h2⟩, h3⟩, h4⟩, h5⟩, z, h6, h7⟩ := h
  exact ⟨x, HeadQ.of (exBuiltQ (by decide +kernel)) hx, h1, h2, h3, h4, h5, z, h6, h7⟩

/-! ## C79 -/

/-- **C79.** The solver with the array queue and range checks does what `solve` does, for some choices among the queued variables: it behaves as a solver that was
given the same clauses, has the same database and trail, and gives the same answer. -/
theorem C79_refines {F : Form} {x : SolQ} (h : BuiltQ F x) : ∃ y : Sol, Built F y ∧ y.db = x.db ∧ y.s.trail = x.x.s.trail ∧ y.s.numVars = x.x.s.numVars ∧
    y.cnf = x.cnf ∧ ∀ (cfg : Cfg) (p : Pre) (os : List Orc) (low : Nat → Bool), ∃ os', SameButPick os os' ∧
      (solve cfg p os' low y).verdict = (solveQ cfg p os low x).verdict := by
  obtain ⟨y, hy, hr⟩ := h.sim
  obtain ⟨hp, e⟩ := hr.rel.of
  refine ⟨y, hy, hr.db.symm, by rw [e], by rw [e], hr.cnf.symm, fun cfg p os low => ?_⟩
  obtain ⟨os', h1, h2⟩ := solve_sim (cfg := cfg) hy hr p os low
  refine ⟨os', h1, ?_⟩
  revert h2
  generalize solve cfg p os' low y = a
  generalize solveQ cfg p os low x = b
  intro h2
  cases h2 <;> rfl

/-- **C79.** No operation on the array queue fails, no index is out of range and all loops end, whatever the activities and the choices are. -/
theorem C79_solve_never_panics {F : Form} {x : SolQ} (h : BuiltQ F x) (hn : x.x.s.numVars < 65535) (hc : x.x.s.numVars ≤ x.cnf)
    (cfg : Cfg) (p : Pre) (os : List Orc) (low : Nat → Bool) :
    solveQ cfg p os low x ≠ .panic ∧ solveQ cfg p os low x ≠ .fuel := by
  obtain ⟨y, hy, hr⟩ := h.sim
  obtain ⟨hp, e⟩ := hr.rel.of
  obtain ⟨os', -, h2⟩ := solve_sim (cfg := cfg) hy hr p os low
  obtain ⟨k1, k2⟩ := C52_solve_never_panics hy (by rw [e] at hn; exact hn) (by rw [e, hr.cnf] at hc; exact hc) cfg p os' low
  revert h2 k1 k2
  generalize solve cfg p os' low y = a
  generalize solveQ cfg p os low x = b
  intro h2 k1 k2
  cases h2 <;> simp_all

/-- **C79.** `add_clause` and `add_assignment` find all indices in range. -/
theorem C79_api_never_panics {F : Form} {x : SolQ} (h : BuiltQ F x) : (∀ v, x.addClause v ≠ none) ∧ ∀ i, x.addAssignment i ≠ none := by
  obtain ⟨y, hy, hr⟩ := h.sim
  refine ⟨fun v e => ?_, fun i e => ?_⟩
  · have := addClause_sim hr hy.bok.1.dom v
    rw [e] at this
    obtain ⟨y', e', h1, -⟩ := addClause_spec hy.bok.1 v
    rw [h1] at this
    cases this
  · have := addAssignment_sim hr i
    rw [e] at this
    generalize y.addAssignment i = z at this
    obtain ⟨z1, z2⟩ := z
    cases this

/-- **C79.** The answers are right: a SAT answer is a model of what was given, with one literal for each variable; an UNSAT answer means that there is none. -/
theorem C79_answers {F : Form} {x : SolQ} (h : BuiltQ F x) (cfg : Cfg) (p : Pre) (os : List Orc) (low : Nat → Bool) :
    (∀ vals, (solveQ cfg p os low x).verdict = .sat vals → Canonical vals x.x.s.numVars ∧ Form.sat (valsAsg vals) F) ∧
    (cfg.enable = true → (solveQ cfg p os low x).verdict = .unsat → ¬ F.Satisfiable) := by
  obtain ⟨y, hy, -, -, hn, -, hall⟩ := C79_refines h
  obtain ⟨os', -, e⟩ := hall cfg p os low
  refine ⟨fun vals hv => ?_, fun hc hv => ?_⟩
  · rw [← e] at hv
    rw [← hn]
    exact ⟨C49_model_is_canonical hy cfg p os' low hv, C01_sat_answers_are_models hy cfg p os' low hv⟩
  · rw [← e] at hv
    exact C02_unsat_answers_are_correct hy hc p os' low hv

/-- The hypotheses hold, for runs in which a variable is eliminated, variables are decided, and clauses are learnt. -/
example : BuiltQ (exSat.map clsOf) (exSolverQ 4 exSat) ∧ (solveQ {} elimPre (List.replicate 9 stageOrc) noLow (exSolverQ 4 exSat)).verdict = .sat [1, -2, 3, 4] :=
  ⟨exBuiltQ (by decide +kernel), by decide +kernel⟩

example : BuiltQ (exUnsat.map clsOf) (exSolverQ 3 exUnsat) ∧ (solveQ {} plainPre (List.replicate 9 stageOrc) noLow (exSolverQ 3 exUnsat)).verdict = .unsat :=
  ⟨exBuiltQ (by decide +kernel), by decide +kernel⟩

end Splr
