import Verif.Lemmas.SesSpec
import Verif.Props.C48_Again
import Verif.Props.C03_C11_Search
/-!
# C71, C72: adding clauses between two calls of `solve`; facts are permanent

Nothing in the API prevents a program from adding clauses to a solver that has answered (say, the negation of the model, to get
another one). README.md:235 says that this use is no longer supported; the theorems say what it means nevertheless.
-/
namespace Splr

/-- `Session F K x`: the solver `x` has been given the clauses `F`, in any number of rounds, each a number of calls of the API followed
by a call of `solve` that answered SAT; `K` are the facts that the last answer left (none before the first one). The eliminator is
enabled; after each answer the elimination store and the saved trail are empty, as in `AskedPlain`. -/
inductive Session : Form → (Lit → Prop) → Sol → Prop
  | built {F : Form} {x : Sol} (h : Built F x) : Session F (fun _ => False) x
  | addVar {F : Form} {K : Lit → Prop} {x : Sol} (h : Session F K x) : Session F K x.addVar.1
  | addClause {F : Form} {K : Lit → Prop} {x y : Sol} {v : List Int} (h : Session F K x) (e : x.addClause v = some (y, none)) : Session (F ++ [clsOf v]) K y
  | rejected {F : Form} {K : Lit → Prop} {x y : Sol} {v : List Int} {err : ApiErr} (h : Session F K x) (e : x.addClause v = some (y, some err)) : Session F K y
  | addAssignment {F : Form} {K : Lit → Prop} {x y : Sol} {i : Int} (h : Session F K x) (e : x.addAssignment i = (y, none)) : Session (F ++ [clsOf [i]]) K y
  | rejectedAssignment {F : Form} {K : Lit → Prop} {x y : Sol} {i : Int} (h : Session F K x) (e : x.addAssignment i = (y, some .invalidLiteral)) :
      Session F K y
  | solved {F : Form} {K : Lit → Prop} {x y : Sol} {cfg : Cfg} {p : Pre} {os : List Orc} {low : Nat → Bool} {vals : List Int} (h : Session F K x)
      (hen : cfg.enable = true) (e : solve cfg p os low x = .sat vals y) (h1 : y.store = []) (h2 : y.s.saved = []) : Session F (Fact y.s) y

theorem Session.ok {F : Form} {K : Lit → Prop} {x : Sol} (h : Session F K x) : SesOK F K x := by
  induction h with
  | built h => exact h.bok.1.sesOK h.bok.2
  | addVar _ ih => exact ih.addVar
  | @addClause F K x y v _ e ih =>
    obtain ⟨y', e', h1, -, h3, -⟩ := ih.addClause v
    rw [e] at h1
    simp only [Option.some.injEq, Prod.mk.injEq] at h1
    obtain ⟨rfl, rfl⟩ := h1
    exact h3 rfl
  | @rejected F K x y v err _ e ih =>
    obtain ⟨y', e', h1, -, -, h4, -⟩ := ih.addClause v
    rw [e] at h1
    simp only [Option.some.injEq, Prod.mk.injEq] at h1
    obtain ⟨rfl, rfl⟩ := h1
    rw [h4 (by simp)]; exact ih
  | @addAssignment F K x y i _ e ih =>
    have := (ih.addAssignment i).2.2.1
    rw [e] at this
    exact this rfl
  | @rejectedAssignment F K x y i _ e ih =>
    have := (ih.addAssignment i).2.1
    rw [e] at this
    have e2 : y = x := this rfl
    rw [e2]; exact ih
  | @solved F K x y cfg p os low vals _ hen e h1 h2 ih =>
    have := ih.solve hen (p := p) (os := os) (low := low)
    rw [e] at this
    exact this.2.2.2.2 h1 h2

/-- **C71** (partial): what a solver that is given more clauses after an answer answers next. The clauses and facts it holds have exactly
the models of all the clauses it was given that agree with the facts the last answer left. An answer SAT is a model of all clauses;
UNSAT, an `EmptyClause` of `add_clause` and a `RootLevelConflict` of `add_assignment` mean that no model agrees with these facts.
Missing: solvers that have eliminated variables or kept a saved trail (C48), and the claim with no regard to the facts, which is
false (`C71_violated`). -/
theorem C71_added_clauses_partial {F : Form} {K : Lit → Prop} {x : Sol} (h : Session F K x) :
    (∀ b, IsModel x.db x.s b ↔ Form.sat b F ∧ ∀ l, K l → l.sat b) ∧
    (∀ cfg : Cfg, cfg.enable = true → ∀ p os low,
      (∀ vals, (solve cfg p os low x).verdict = .sat vals → Canonical vals x.s.numVars ∧ Form.sat (valsAsg vals) F) ∧
      ((solve cfg p os low x).verdict = .unsat → ¬ ∃ b, Form.sat b F ∧ ∀ l, K l → l.sat b)) ∧
    (∀ v, ∃ y e, x.addClause v = some (y, e) ∧ (e = some .emptyClause → ¬ ∃ b, Form.sat b (F ++ [clsOf v]) ∧ ∀ l, K l → l.sat b)) ∧
    ∀ i, (x.addAssignment i).2 = some .rootConflict → ¬ ∃ b, Form.sat b (F ++ [clsOf [i]]) ∧ ∀ l, K l → l.sat b := by
  have ok := h.ok
  refine ⟨fun b => by rw [isModel_iff]; exact (ok.mods b).symm, fun cfg hen p os low => ?_, fun v => ?_, fun i hi => ?_⟩
  · have := ok.solve hen (p := p) (os := os) (low := low)
    cases hs : solve cfg p os low x with
    | sat vals y =>
      rw [hs] at this
      refine ⟨fun vals' e => ?_, by simp [Ans.verdict]⟩
      simp only [Ans.verdict, Verdict.sat.injEq] at e
      subst e
      exact ⟨this.1, this.2.1⟩
    | unsat db =>
      rw [hs] at this
      exact ⟨by simp [Ans.verdict], fun _ => this⟩
    | _ => simp [Ans.verdict]
  · obtain ⟨y, e, h1, -, -, -, h5⟩ := ok.addClause v
    refine ⟨y, e, h1, fun he => ?_⟩
    rcases h5 with h5 | h5 | h5
    · rw [h5] at he; simp at he
    · rw [h5] at he; simp at he
    · exact h5.2
  · rcases (ok.addAssignment i).2.2.2 with h5 | h5 | h5
    · rw [h5] at hi; simp at hi
    · rw [h5] at hi; simp at hi
    · exact h5.2

/-- **C71** (partial): as long as the facts are consequences of the clauses — no pure literal has been asserted — the answers are right. -/
theorem C71_exact_partial {F : Form} {K : Lit → Prop} {x : Sol} (h : Session F K x) (hK : ∀ l, K l → ∀ b, Form.sat b F → l.sat b) {cfg : Cfg}
    (hen : cfg.enable = true) (p : Pre) (os : List Orc) (low : Nat → Bool) :
    (∀ b, IsModel x.db x.s b ↔ Form.sat b F) ∧ ((solve cfg p os low x).verdict = .unsat → ¬ F.Satisfiable) := by
  obtain ⟨h1, h2, -⟩ := C71_added_clauses_partial h
  refine ⟨fun b => (h1 b).trans ⟨fun h => h.1, fun h => ⟨h, fun l hl => hK l hl b h⟩⟩, fun e => ?_⟩
  rintro ⟨b, hb⟩
  exact (h2 cfg hen p os low).2 e ⟨b, hb, fun l hl => hK l hl b hb⟩

/-- Two equivalences: four models. -/
def exFour : List (List Int) := [[1, 2], [-1, -2], [3, 4], [-3, -4]]

/-- The solver after the clause was added. -/
def exAdd (x : Sol) (c : List Int) : Sol := ((x.addClause c).map (·.1)).getD x

theorem exAdd_ok {x : Sol} {c : List Int} (h : ((x.addClause c).map (·.2)) = some none) : x.addClause c = some (exAdd x c, none) := by
  unfold exAdd
  cases hx : x.addClause c with
  | none => rw [hx] at h; simp at h
  | some r => obtain ⟨y, e⟩ := r; rw [hx] at h; simp at h; subst h; rfl

theorem exRound {F : Form} {K : Lit → Prop} {x : Sol} (h : Session F K x) (h0 : (solve {} plainPre (List.replicate 9 plainOrc) noLow x).next.isSome = true)
    (h1 : (exAsked plainPre x).store = []) (h2 : (exAsked plainPre x).s.saved = []) {c : List Int}
    (h3 : (((exAsked plainPre x).addClause c).map (·.2)) = some none) :
    Session (F ++ [clsOf c]) (Fact (exAsked plainPre x).s) (exAdd (exAsked plainPre x) c) := by
  obtain ⟨v1, e1⟩ := exAsked_sat h0
  exact .addClause (.solved h rfl e1 h1 h2) (exAdd_ok h3)

def exR1 : Sol := exAdd (exAsked plainPre (exSolver 4 exFour)) [-1, 2, -3, 4]
def exR2 : Sol := exAdd (exAsked plainPre exR1) [-1, 2, 3, -4]
def exR3 : Sol := exAdd (exAsked plainPre exR2) [1, -2, -3, 4]

/-- All models of `exFour` are found, one after the other: the negation of each is added before the next call. After the fourth
answer, its negation is rejected. -/
example : ∃ (K : Lit → Prop) (y : Sol), Session (exFour.map clsOf ++ [clsOf [-1, 2, -3, 4]] ++ [clsOf [-1, 2, 3, -4]] ++ [clsOf [1, -2, -3, 4]]) K exR3 ∧
    (solve {} plainPre (List.replicate 9 plainOrc) noLow (exSolver 4 exFour)).verdict = .sat [1, -2, 3, -4] ∧
    (solve {} plainPre (List.replicate 9 plainOrc) noLow exR1).verdict = .sat [1, -2, -3, 4] ∧
    (solve {} plainPre (List.replicate 9 plainOrc) noLow exR2).verdict = .sat [-1, 2, 3, -4] ∧
    (solve {} plainPre (List.replicate 9 plainOrc) noLow exR3).verdict = .sat [-1, 2, -3, 4] ∧
    (exAsked plainPre exR3).addClause [1, -2, 3, -4] = some (y, some .emptyClause) := by
  have hb := exBuilt (nv := 4) (cs := exFour) (by decide +kernel)
  have s1 := exRound (c := [-1, 2, -3, 4]) (.built hb) (by decide +kernel) (by decide +kernel) (by decide +kernel) (by decide +kernel)
  have s2 := exRound (c := [-1, 2, 3, -4]) s1 (by decide +kernel) (by decide +kernel) (by decide +kernel) (by decide +kernel)
  have s3 := exRound (c := [1, -2, -3, 4]) s2 (by decide +kernel) (by decide +kernel) (by decide +kernel) (by decide +kernel)
  refine ⟨_, exAdd (exAsked plainPre exR3) [1, -2, 3, -4], s3, by decide +kernel, by decide +kernel, by decide +kernel, by decide +kernel, ?_⟩
  have e : ((exAsked plainPre exR3).addClause [1, -2, 3, -4]).map (·.2) = some (some .emptyClause) := by decide +kernel
  unfold exAdd
  cases hx : (exAsked plainPre exR3).addClause [1, -2, 3, -4] with
  | none => rw [hx] at e; simp at e
  | some r => obtain ⟨y, e'⟩ := r; rw [hx] at e; simp at e; subst e; rfl

/-- **C71 is violated** without regard to the facts: preprocessing asserts pure literals (src/solver/search.rs:98-119, with the
comment "This becomes a problem in the case of incremental solving"), and they stay. After the model `1, 2` of the clause `1 ∨ 2`
the solver rejects its negation, although there are two other models. -/
theorem C71_violated : ∃ (F : Form) (x y z : Sol), Built F x ∧ solve {} plainPre (List.replicate 9 plainOrc) noLow x = .sat [1, 2] y ∧
    y.store = [] ∧ y.s.saved = [] ∧ y.addClause [-1, -2] = some (z, some .emptyClause) ∧ Form.Satisfiable (F ++ [clsOf [-1, -2]]) := by
  have hb := exBuilt (nv := 2) (cs := [[1, 2]]) (by decide +kernel)
  obtain ⟨v, e⟩ := exAsked_sat (p := plainPre) (x := exSolver 2 [[1, 2]]) (by decide +kernel)
  have hv : (solve {} plainPre (List.replicate 9 plainOrc) noLow (exSolver 2 [[1, 2]])).verdict = .sat [1, 2] := by decide +kernel
  have hv' : v = [1, 2] := by rw [e] at hv; simpa [Ans.verdict] using hv
  subst hv'
  have e2 : ((exAsked plainPre (exSolver 2 [[1, 2]])).addClause [-1, -2]).map (·.2) = some (some .emptyClause) := by decide +kernel
  cases hx : (exAsked plainPre (exSolver 2 [[1, 2]])).addClause [-1, -2] with
  | none => rw [hx] at e2; simp at e2
  | some r =>
    obtain ⟨z, e'⟩ := r
    rw [hx] at e2; simp at e2; subst e2
    exact ⟨_, _, _, z, hb, e, by decide +kernel, by decide +kernel, hx, ⟨valsAsg [1, -2], by decide +kernel⟩⟩

/-! ## facts are permanent -/

/-- Facts stay, and what the solver holds afterwards follows from what it held and the facts it has added. -/
def Permanent (db : Cdb) (s : Stk) (db' : Cdb) (s' : Stk) : Prop :=
  (∀ l, Fact s l → Fact s' l) ∧ ∀ b, IsModel db s b → (∀ l, Fact s' l → l.sat b) → IsModel db' s' b

theorem Mono.permanent {db : Cdb} {s : Stk} {db' : Cdb} {s' : Stk} (h : Mono db s db' s') : Permanent db s db' s' :=
  ⟨h.root, fun b hb hu => isModel_iff.2 ⟨h.sat b (isModel_iff.1 hb).1 hu, hu⟩⟩

/-- **C72**: through preprocessing, every iteration of the main loop and the end of a call that answers SAT, with any configuration and
any choices, no fact is ever given up, and nothing is assumed but facts. -/
theorem C72_facts_are_permanent (cfg : Cfg) (F : Form) :
    (∀ (x y : Sol) (p : Pre), Built F x → preprocess cfg p x = .ok y → Permanent x.db x.s y.db y.s) ∧
    (∀ (x y : Sol) (o : Orc), Head cfg F x → searchStep cfg o x = .ok y → Permanent x.db x.s y.db y.s) ∧
    (∀ (x y : Sol) (low : Nat → Bool) (vals : List Int), Head cfg F x → finish low x = .sat vals y → Permanent x.db x.s y.db y.s) := by
  refine ⟨fun x y p h e => ?_, fun x y o h e => ?_, fun x y low vals h e => ?_⟩
  · cases hen : cfg.enable with
    | true => exact (preprocess_mono hen h.bok.1.agOK e).permanent
    | false => exact (preprocess_mono_off hen h.bok.1.agOK e).permanent
  · obtain ⟨F', -, hs⟩ := h.sok
    exact (searchStep_mono hs e).permanent
  · obtain ⟨F', -, hs⟩ := h.sok
    exact (finish_mono hs e).permanent

/-- **C72**: the same between the two ends of a call that answers SAT, also in later rounds. -/
theorem C72_through_a_call {F : Form} {K : Lit → Prop} {x y : Sol} (h : Session F K x) {cfg : Cfg} (hen : cfg.enable = true) {p : Pre} {os : List Orc}
    {low : Nat → Bool} {vals : List Int} (e : solve cfg p os low x = .sat vals y) : Permanent x.db x.s y.db y.s := by
  obtain ⟨G, ha, -⟩ := h.ok.agOK
  exact (solve_mono hen ha e).permanent

/-- `C71_violated` shows that more than the consequences of the clauses may become facts. In the third round above the solver has
found out that 1 is false. -/
example : Fact (exAsked plainPre exR2).s ⟨1, false⟩ ∧ ¬ Fact (exAsked plainPre exR1).s ⟨1, false⟩ ∧ Fact (exAsked plainPre exR3).s ⟨1, false⟩ := by
  have h : ∀ s : Stk, ∀ l : Lit, Fact s l ↔ (decide (s.assign l.var = some l.pos) && decide (s.level l.var = 0)) = true := fun s l => by
    simp [Fact, Holds]
  rw [h, h, h]
  decide +kernel

end Splr
