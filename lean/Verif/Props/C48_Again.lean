import Verif.Lemmas.AgainSpec
import Verif.Props.C01_C02_Solve
/-!
# C48: asking the same solver again

`solve` leaves the solver at the root level after the answer SAT, and may be called again.
-/
namespace Splr

/-- `Asked F x`: the solver `x` was given `F` and has then been asked any number of times, always answering SAT (with
any configuration and any choices of the heuristics). -/
inductive Asked (F : Form) : Sol → Prop
  | built {x : Sol} (h : Built F x) : Asked F x
  | again {x y : Sol} {cfg : Cfg} {p : Pre} {os : List Orc} {low : Nat → Bool} {vals : List Int} (h : Asked F x)
      (e : solve cfg p os low x = .sat vals y) : Asked F y

/-- A solver that answers with the eliminator enabled; after every answer its elimination store and its saved trail are
empty (nothing was eliminated, at most two decisions were open when the model was found). -/
inductive AskedPlain (F : Form) : Sol → Prop
  | built {x : Sol} (h : Built F x) : AskedPlain F x
  | again {x y : Sol} {cfg : Cfg} {p : Pre} {os : List Orc} {low : Nat → Bool} {vals : List Int} (h : AskedPlain F x)
      (hen : cfg.enable = true) (e : solve cfg p os low x = .sat vals y) (h1 : y.store = []) (h2 : y.s.saved = []) : AskedPlain F y

theorem AskedPlain.asked {F : Form} {x : Sol} (h : AskedPlain F x) : Asked F x := by
  induction h with
  | built h => exact .built h
  | again _ _ e _ _ ih => exact .again ih e

theorem AskedPlain.ok {F : Form} {x : Sol} (h : AskedPlain F x) : AgOK F x ∧ Rng F x.s.numVars := by
  induction h with
  | built h => exact ⟨h.bok.1.agOK, h.bok.2⟩
  | @again x y cfg p os low vals h hen e h1 h2 ih =>
    have := solve_again (cfg := cfg) hen (p := p) (os := os) (low := low) ih.1 ih.2
    rw [e] at this
    exact ⟨this.2.2.2 h1 h2, by rw [this.2.2.1]; exact ih.2⟩

/-- **C48** (partial): such a solver may be asked again any number of times: SAT answers are models of what the solver was
given, and UNSAT is answered only if there is none. Missing: solvers that have eliminated variables or kept a saved trail,
where the claim is false (`C48_asking_again_violated`). -/
theorem C48_asking_again_partial {F : Form} {x : Sol} (h : AskedPlain F x) {cfg : Cfg} (hen : cfg.enable = true) (p : Pre) (os : List Orc)
    (low : Nat → Bool) :
    (∀ vals, (solve cfg p os low x).verdict = .sat vals → Canonical vals x.s.numVars ∧ Form.sat (valsAsg vals) F) ∧
      ((solve cfg p os low x).verdict = .unsat → ¬ F.Satisfiable) := by
  have := solve_again (cfg := cfg) hen (p := p) (os := os) (low := low) h.ok.1 h.ok.2
  cases hs : solve cfg p os low x with
  | sat vals y =>
    rw [hs] at this
    refine ⟨fun vals' e => ?_, by simp [Ans.verdict]⟩
    simp only [Ans.verdict, Verdict.sat.injEq] at e
    subst e
    exact ⟨this.1, this.2.1⟩
  | unsat db =>
    rw [hs] at this
    exact ⟨by simp [Ans.verdict], fun _ => this⟩
  | _ => simp [Ans.verdict]

/-- The solver after a call. -/
def Ans.next : Ans → Option Sol
  | .sat _ y => some y
  | _ => none

theorem Ans.of_next {a : Ans} {y : Sol} (h : a.next = some y) : ∃ vals, a = .sat vals y := by
  cases a <;> simp [Ans.next] at h
  subst h; exact ⟨_, rfl⟩

/-- The call panics. -/
def Ans.isPanic : Ans → Bool
  | .panic => true
  | _ => false

theorem Ans.of_isPanic {a : Ans} (h : a.isPanic = true) : a = .panic := by
  cases a <;> simp [Ans.isPanic] at h; rfl

/-- The solver after a call with the choices of `plainOrc`. -/
def exAsked (p : Pre) (x : Sol) : Sol := (solve {} p (List.replicate 9 plainOrc) noLow x).next.getD x

theorem exAsked_sat {p : Pre} {x : Sol} (h : (solve {} p (List.replicate 9 plainOrc) noLow x).next.isSome = true) :
    ∃ vals, solve {} p (List.replicate 9 plainOrc) noLow x = .sat vals (exAsked p x) := by
  obtain ⟨y, hy⟩ := Option.isSome_iff_exists.1 h
  obtain ⟨vals, e⟩ := Ans.of_next hy
  exact ⟨vals, by unfold exAsked; rw [hy]; exact e⟩

/-- Two decisions are needed. -/
def exTwo : List (List Int) := [[1, 2], [-1, -2], [-1, 3], [1, -3], [4, 2, 3], [-4, -1, -3], [5, 6], [-5, -6]]

/-- The theorem applies to the third call. -/
example : ∃ vals, AskedPlain (exTwo.map clsOf) (exAsked plainPre (exAsked plainPre (exSolver 6 exTwo))) ∧
    (solve {} plainPre (List.replicate 9 plainOrc) noLow (exAsked plainPre (exAsked plainPre (exSolver 6 exTwo)))).verdict = .sat vals := by
  obtain ⟨v1, e1⟩ := exAsked_sat (p := plainPre) (x := exSolver 6 exTwo) (by decide +kernel)
  obtain ⟨v2, e2⟩ := exAsked_sat (p := plainPre) (x := exAsked plainPre (exSolver 6 exTwo)) (by decide +kernel)
  have h1 := AskedPlain.again (.built (exBuilt (nv := 6) (cs := exTwo) (by decide +kernel))) rfl e1 (by decide +kernel) (by decide +kernel)
  exact ⟨[1, -2, 3, -4, 5, -6], .again h1 rfl e2 (by decide +kernel) (by decide +kernel), by decide +kernel⟩

/-- Three equivalences: `1 = 2`, `3 ≠ 4`, `5 ≠ 6`. -/
def exPairs : List (List Int) := [[-1, 2], [1, -2], [3, 4], [-3, -4], [5, 6], [-5, -6]]

/-- Variable 2 is eliminated. -/
def elim2 : Pre := { plainPre with cmds := [.elimVar 2] }

/-- **C48 is violated.** A solver that has eliminated a variable and answered SAT panics when it is asked again: the answer clears
the flags of the eliminated variables (src/solver/search.rs:198-203) but not their number, so that the second search stops
before all variables are assigned, and `model[vi].unwrap()` fails. -/
theorem C48_asking_again_violated : ∃ (F : Form) (x y : Sol) (vals : List Int), Built F x ∧ F.Satisfiable ∧
    solve {} elim2 (List.replicate 9 plainOrc) noLow x = .sat vals y ∧ Asked F y ∧
      solve {} plainPre (List.replicate 9 plainOrc) noLow y = .panic := by
  obtain ⟨vals, e⟩ := exAsked_sat (p := elim2) (x := exSolver 6 exPairs) (by decide +kernel)
  have hb := exBuilt (nv := 6) (cs := exPairs) (by decide +kernel)
  refine ⟨exPairs.map clsOf, exSolver 6 exPairs, _, vals, hb, ⟨valsAsg vals, hb.sat (by rw [e]; rfl) |>.2⟩, e, .again (.built hb) e,
    Ans.of_isPanic (by decide +kernel)⟩

/-- **C48 is violated** even if the first call eliminates nothing: the second call eliminates variable 2, which the trail saved
by the first one assigns again (src/assign/trail_saving.rs:52-105). -/
theorem C48_saved_trail_violated : ∃ (F : Form) (x y : Sol) (vals : List Int), Built F x ∧ F.Satisfiable ∧
    solve {} plainPre (List.replicate 9 plainOrc) noLow x = .sat vals y ∧ Asked F y ∧ y.store = [] ∧
      solve {} elim2 (List.replicate 9 plainOrc) noLow y = .panic := by
  obtain ⟨vals, e⟩ := exAsked_sat (p := plainPre) (x := exSolver 6 exPairs) (by decide +kernel)
  have hb := exBuilt (nv := 6) (cs := exPairs) (by decide +kernel)
  refine ⟨exPairs.map clsOf, exSolver 6 exPairs, _, vals, hb, ⟨valsAsg vals, hb.sat (by rw [e]; rfl) |>.2⟩, e, .again (.built hb) e, by decide +kernel,
    Ans.of_isPanic (by decide +kernel)⟩

end Splr
