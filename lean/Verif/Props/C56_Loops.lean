import Verif.Lemmas.Full
import Verif.Model.Skip
import Verif.Props.C54_C55_Answers
/-!
# C56: the control loops of the eliminator

`solveQ` (Verif/Model/Full.lean) is `solve` with the queue of clauses, the queue of variables and the budget of the eliminator. In
`solve` and `timedSolve` the eliminator is an arbitrary list of commands.
-/
namespace Splr
open Stk Stage LubySpec

/-- Iterations with plain choices; the eliminator has the budget `b`. -/
def plainQ (b : Nat) : TickQ := { t := plainTick, ctl := stdCtl b }

/-- **C56.** The eliminator's loops are one of the behaviours that are arbitrary in `timedSolve`: whatever holds of `timedSolve` for all
commands of the eliminator (C01, C02, C52, C54) holds of the solver with these loops. -/
theorem C56_loops_are_commands {F : Form} {x : Sol} (h : Built F x) (hc : x.cnf = x.s.numVars) (cfg : Cfg) (p : PreQ) (u : Nat) (ts : List TickQ) (low : Nat → Bool) :
    ∃ (q : Pre) (qs : List Tick), qs.length = ts.length ∧ solveQ cfg p (StageManager.new u) ts low x = timedSolve cfg q (StageManager.new u) qs low x := by
  obtain ⟨c, cs, h1, h2, -⟩ := solveQ_eq (cfg := cfg) (p := p) (m := StageManager.new u) (ts := ts) (low := low) h hc Luby.inv_default
  exact ⟨_, _, by simp [fill, h1], h2⟩

/-- **C56.** With the real loops of the eliminator, `solve` neither panics nor does a loop of the eliminator run forever: whatever the
limits, the budgets, the clock and the outcomes of `skip_var_elimination` are. -/
theorem C56_loops_end {F : Form} {x : Sol} (h : Built F x) (hn : x.s.numVars < 65535) (hc : x.cnf = x.s.numVars) (cfg : Cfg) (p : PreQ) (u : Nat) (ts : List TickQ)
    (low : Nat → Bool) : solveQ cfg p (StageManager.new u) ts low x ≠ .panic ∧ solveQ cfg p (StageManager.new u) ts low x ≠ .fuel := by
  obtain ⟨q, qs, -, e⟩ := C56_loops_are_commands h hc cfg p u ts low
  obtain ⟨os, -, e'⟩ := C54_stage_manager_is_a_choice cfg q u qs low x
  rw [e, e']
  exact C52_solve_never_panics h hn (by omega) cfg q os low

/-- **C56.** The solver with the real loops terminates. -/
theorem C56_terminates {F : Form} {x : Sol} (h : Built F x) (hc : x.cnf = x.s.numVars) (cfg : Cfg) (p : PreQ) (u : Nat) {ts : List TickQ}
    (hl : answerBound x.s.numVars ≤ ts.length) (low : Nat → Bool) (y : Sol) : solveQ cfg p (StageManager.new u) ts low x ≠ .more y := by
  obtain ⟨q, qs, e1, e⟩ := C56_loops_are_commands h hc cfg p u ts low
  rw [e]
  exact C54_solve_terminates h cfg q u (by omega) low y

/-- **C56.** Its models are models, and its UNSAT answers are correct. -/
theorem C56_sound {F : Form} {x : Sol} (h : Built F x) (hc : x.cnf = x.s.numVars) (cfg : Cfg) (p : PreQ) (u : Nat) (ts : List TickQ) (low : Nat → Bool) :
    (∀ vals y, solveQ cfg p (StageManager.new u) ts low x = .sat vals y → Form.sat (valsAsg vals) F) ∧
    (cfg.enable = true → ∀ db, solveQ cfg p (StageManager.new u) ts low x = .unsat db → ¬ F.Satisfiable) := by
  obtain ⟨q, qs, -, e⟩ := C56_loops_are_commands h hc cfg p u ts low
  obtain ⟨os, -, e'⟩ := C54_stage_manager_is_a_choice cfg q u qs low x
  rw [e, e']
  exact ⟨fun vals y hs => C01_sat_answers_are_models h cfg q os low (by rw [hs]; rfl), fun hen db hs => C02_unsat_answers_are_correct h hen q os low (by rw [hs]; rfl)⟩

/-- A clause set on which the eliminator removes all four variables by itself, and the model is found after that. -/
example : Built (exSat.map clsOf) (exSolver 4 exSat) ∧ (exSolver 4 exSat).s.numVars < 65535 ∧ (exSolver 4 exSat).cnf = (exSolver 4 exSat).s.numVars ∧
    (match preprocessQ {} (stdPre 100) (exSolver 4 exSat) with | .ok y => [1, 2, 3, 4].all y.s.elim | _ => false) = true ∧
    (match (solveQ {} (stdPre 100) (StageManager.new 32) (List.replicate 3 (plainQ 100)) noLow (exSolver 4 exSat)).verdict with | .sat _ => true | _ => false) = true :=
  ⟨exBuilt (by decide +kernel), by decide +kernel, by decide +kernel, by decide +kernel, by decide +kernel⟩

/-- And one that is refuted. -/
example : Built (exUnsat.map clsOf) (exSolver 3 exUnsat) ∧ (exSolver 3 exUnsat).cnf = (exSolver 3 exUnsat).s.numVars ∧
    (solveQ {} (stdPre 100) (StageManager.new 32) (List.replicate 9 (plainQ 100)) noLow (exSolver 3 exUnsat)).verdict = .unsat :=
  ⟨exBuilt (by decide +kernel), by decide +kernel, by decide +kernel⟩

/-! ## C07 and C55 on the real loops -/

/-- With an occurrence limit of 1. -/
def exReal : List (List Int) :=
  [[1, -2], [2, -4], [-10, -7, 4, 5, 6, -2], [5, -9, -7], [7, 9, 4, 3, -5], [2, 7, -3, 4], [5, -4], [-1, -2], [-4, -5], [10, -1, 9, -7], [-8, -9, 4, -6], [-5, -8, -2, 7, -3]]

/-- 7, 9 and 10 are decided negatively, the others positively. -/
def realQ : TickQ := { t := { plainTick with o := { plainOrc with phase := fun v => [1, 2, 3, 4, 5, 6, 8].contains v } }, ctl := stdCtl 2000 }

/-- With an occurrence limit of 2. -/
def exReal2 : List (List Int) :=
  [[7, -10, 2, -5], [-12, -8, -3], [7, 8], [-11, -2, 1], [2, -11, -1, 12], [-11, -3, -8], [8, -12, 5, -1], [7, -1, 6, -2], [-4, -7], [6, -11, -1], [-9, 11], [-1, -4, 7],
   [-11, 4, -7, 10], [-9, -2], [-7, 4, 2], [9, -2]]

/-- **C07 is violated** by the eliminator of the code: with the occurrence limit 2 and an ample budget, preprocessing ends with the clause {¬7, 2} although
2 is false. The first propagation of the main loop ends without a conflict, and 7 is still unassigned. -/
theorem C07_violated_by_the_loops : ∃ (F : Form) (x y : Sol) (cfg : Cfg) (p : PreQ), Built F x ∧ x.cnf = x.s.numVars ∧ preprocessQ cfg p x = .ok y ∧
    ∃ o s db s', decideStep o y.s = some s ∧ propagate o.q y.db s = .ok db s' ∧ ∃ c a, Held db c ∧ a ∈ c ∧ Open s' a ∧ ∀ l ∈ c, l ≠ a → Fails s' l := by
  have h : (match preprocessQ { evo := 2 } (stdPre 2000) (exSolver 12 exReal2) with
    | .ok y =>
      (match decideStep { plainOrc with pick := fun _ => 1 } y.s with
      | some s =>
        (match propagate 100 y.db s with
        | .ok db s' => decide ((db.clause 7).lits = [⟨7, false⟩, ⟨2, true⟩] ∧ s'.assign 7 = none ∧ s'.assign 2 = some false)
        | _ => false)
      | none => false)
    | _ => false) = true := by decide +kernel
  split at h
  · rename_i y e1
    split at h
    · rename_i s e2
      split at h
      · rename_i db s' e3
        simp only [decide_eq_true_eq] at h
        obtain ⟨h1, h2, h3⟩ := h
        refine ⟨_, _, y, _, _, exBuilt (by decide +kernel), by decide +kernel, e1, { plainOrc with pick := fun _ => 1 }, s, db, s', e2, e3, _, ⟨7, false⟩, ⟨?_, 7, h1⟩, by simp, ?_, ?_⟩
        · simp
        · simpa [Open] using h2
        · simp [Fails, h3]
      · cases h
    · cases h
  · cases h

/-- **C55 is violated** by the eliminator of the code, not only by an arbitrary eliminator: with the occurrence limit 1 (command line option
`evo`), an ample budget and no limits on time and memory, `solve` ends with the error `SolverBug` for a satisfiable formula. -/
theorem C55_violated_by_the_loops : ∃ (F : Form) (x : Sol) (cfg : Cfg) (p : PreQ) (ts : List TickQ) (low : Nat → Bool), Built F x ∧ x.s.numVars < 65535 ∧
    x.cnf = x.s.numVars ∧ cfg.enable = true ∧ (p.oom = false ∧ p.oom1 = false ∧ p.oom2 = false) ∧ (∀ t ∈ ts, t.t.st.timeout = false ∧ t.t.st.oom = false) ∧
    F.Satisfiable ∧ solveQ cfg p (StageManager.new 32) ts low x = .err := by
  refine ⟨_, exSolver 10 exReal, { evo := 1 }, stdPre 2000, List.replicate 9 realQ, noLow, exBuilt (by decide +kernel), by decide +kernel, by decide +kernel, rfl,
    ⟨rfl, rfl, rfl⟩, fun t ht => by rw [(List.mem_replicate.1 ht).2]; exact ⟨rfl, rfl⟩, ⟨valsAsg [-1, -2, -3, -4, -5, -6, -7, -8, -9, -10], by decide +kernel⟩, ?_⟩
  have h : (match solveQ { evo := 1 } (stdPre 2000) (StageManager.new 32) (List.replicate 9 realQ) noLow (exSolver 10 exReal) with | .err => true | _ => false) = true := by
    decide +kernel
  generalize solveQ { evo := 1 } (stdPre 2000) (StageManager.new 32) (List.replicate 9 realQ) noLow (exSolver 10 exReal) = r at h ⊢
  cases r <;> first | rfl | cases h

/-- A solver for one variable; two variables are added and given values by unit clauses. -/
def exAdded : Sol := (addAll (Sol.new 1).addVar.1.addVar.1 [[2], [3]]).getD (Sol.new 0)

/-- **C27 is violated**, also if every added variable has a value when `solve` is called: with two added variables, the eliminator looks up the occurrence
lists of the second one, which do not exist (src/processor/simplify.rs:44, 56 `get_unchecked`, 474-477; the lists are made for `state.cnf` variables). In the code this is
a read out of bounds. -/
theorem C27_violated_by_the_loops : ∃ (F : Form) (x : Sol), Built F x ∧ F.Satisfiable ∧ (∀ v, x.cnf < v → v ≤ x.s.numVars → x.s.assign v ≠ none) ∧
    ∀ (m : StageManager) (ts : List TickQ) (low : Nat → Bool), (match solveQ {} (stdPre 100) m ts low x with | .panic => True | _ => False) := by
  have hb : Built ([[2], [3]].map clsOf) exAdded := by
    have h1 : (addAll (Sol.new 1).addVar.1.addVar.1 [[2], [3]]).isSome = true := by decide +kernel
    unfold exAdded
    obtain ⟨y, hy⟩ := Option.isSome_iff_exists.1 h1
    rw [hy]
    exact (Built.addVar (.addVar (.new 1))).addAll hy
  refine ⟨_, exAdded, hb, ⟨valsAsg [1, 2, 3], by decide +kernel⟩, ?_, fun m ts low => ?_⟩
  · have h : exAdded.cnf = 1 ∧ exAdded.s.numVars = 3 ∧ exAdded.s.assign 2 ≠ none ∧ exAdded.s.assign 3 ≠ none := by decide +kernel
    obtain ⟨h1, h2, h3, h4⟩ := h
    rw [h1, h2]
    intro v a b
    obtain rfl | rfl : v = 2 ∨ v = 3 := by omega
    · exact h3
    · exact h4
  · have h : (match preprocessQ {} (stdPre 100) exAdded with | .panic => true | _ => false) = true := by decide +kernel
    unfold solveQ
    generalize preprocessQ {} (stdPre 100) exAdded = r at h ⊢
    cases r <;> trivial

end Splr
