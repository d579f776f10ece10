import Verif.Lemmas.ReachSpec
/-!
# C01, C02, C45, C46, C49, C50: the answers

`Built F x`: the solver `x` was constructed and given the clauses `F` through the API (Model/Reach.lean). All choices made by
the heuristics are the arguments `p`, `os`, `low`, which are universally quantified.
-/
namespace Splr

/-! ## runs for the examples -/

/-- Nothing is vivified, eliminated or limited. -/
def plainPre : Pre := { oom := false, targets := [], oom1 := false, cmds := [], oom2 := false }

/-- Variable 2 is eliminated in preprocessing. -/
def elimPre : Pre := { plainPre with targets := [1, 2], cmds := [.subsume 1 2, .elimVar 2] }

/-- Decide the first queued variable positively; no restarts. -/
def plainOrc : Orc := { pick := fun h => h.headD 0, phase := fun _ => true, q := 100, low := noLow, rr := none, drift := false,
                        stage := none, restart := false, low2 := noLow }

/-- A stage ends after the conflict: reduction, vivification and elimination. -/
def stageOrc : Orc :=
  { plainOrc with stage := some { timeout := false, cycle := true, segment := true, victims := [5], targets := [1, 2, 3],
                                  cmds := [.elimVar 1, .elimVar 4], oom := false } }

/-- Successful calls of `add_clause`. -/
def addAll : Sol → List (List Int) → Option Sol
  | x, [] => some x
  | x, c :: cs =>
    match x.addClause c with
    | some (y, none) => addAll y cs
    | _ => none

theorem Built.addAll : ∀ {cs : List (List Int)} {F : Form} {x y : Sol}, Built F x → Splr.addAll x cs = some y → Built (F ++ cs.map clsOf) y
  | [], F, x, y, h, e => by simp only [Splr.addAll, Option.some.injEq] at e; subst e; simpa using h
  | c :: cs, F, x, y, h, e => by
    unfold Splr.addAll at e
    split at e
    · rename_i z hz
      have := Built.addAll (Built.addClause h hz) e
      simpa using this
    · simp at e

/-- The solver with `nv` variables given `cs`. -/
def exSolver (nv : Nat) (cs : List (List Int)) : Sol := (addAll (Sol.new nv) cs).getD (Sol.new nv)

theorem exBuilt {nv : Nat} {cs : List (List Int)} (h : (addAll (Sol.new nv) cs).isSome = true) : Built (cs.map clsOf) (exSolver nv cs) := by
  obtain ⟨y, hy⟩ := Option.isSome_iff_exists.1 h
  have := (Built.new nv).addAll hy
  rw [List.nil_append] at this
  unfold exSolver; rw [hy]; exact this

/-- Satisfiable, with two variables that can be eliminated. -/
def exSat : List (List Int) := [[1, 2, 3], [-1, -2], [-2, 3], [3, 4], [-3, -4, 1]]

/-- Unsatisfiable; found by a conflict after a decision. -/
def exUnsat : List (List Int) := [[1, 2, 3], [1, 2, -3], [1, -2, 3], [1, -2, -3], [-1, 2, 3], [-1, 2, -3], [-1, -2, 3], [-1, -2, -3]]

/-! ## C01 -/

theorem Built.sat {F : Form} {x : Sol} (h : Built F x) {cfg : Cfg} {p : Pre} {os : List Orc} {low : Nat → Bool} {vals : List Int}
    (e : (solve cfg p os low x).verdict = .sat vals) : Canonical vals x.s.numVars ∧ Form.sat (valsAsg vals) F := by
  cases hs : solve cfg p os low x with
  | sat vals' y =>
    rw [hs] at e; simp only [Ans.verdict, Verdict.sat.injEq] at e; subst e
    exact solve_sat_any h.bok.1 h.bok.2 hs
  | _ => rw [hs] at e; simp [Ans.verdict] at e

/-- **C01.** If `solve` answers SAT then the assignment described by the answer satisfies everything the solver was given. -/
theorem C01_sat_answers_are_models {F : Form} {x : Sol} (h : Built F x) (cfg : Cfg) (p : Pre) (os : List Orc) (low : Nat → Bool)
    {vals : List Int} (e : (solve cfg p os low x).verdict = .sat vals) : Form.sat (valsAsg vals) F :=
  (h.sat e).2

/-- **C49.** A SAT answer lists one literal for each variable, in ascending order. -/
theorem C49_model_is_canonical {F : Form} {x : Sol} (h : Built F x) (cfg : Cfg) (p : Pre) (os : List Orc) (low : Nat → Bool)
    {vals : List Int} (e : (solve cfg p os low x).verdict = .sat vals) : Canonical vals x.s.numVars :=
  (h.sat e).1

/-- A run that vivifies, eliminates a variable and decides. -/
example : Built (exSat.map clsOf) (exSolver 4 exSat) ∧
    (solve {} elimPre (List.replicate 9 plainOrc) noLow (exSolver 4 exSat)).verdict = .sat [1, -2, 3, 4] :=
  ⟨exBuilt (by decide +kernel), by decide +kernel⟩

/-! ## C02 -/

/-- The clauses recorded as additions in the certificate (`C23` shows that they can be read back from the file). -/
def Ans.proof : Ans → List Cls
  | .unsat db => adds db.cert
  | _ => []

/-- When `solve` answers UNSAT, each clause added to the certificate is RUP or RAT with respect to the given clauses and the clauses
added before it, and so is the empty clause at the end. With the deletions: `C24_certificate_is_verified`. -/
theorem additions_refute {F : Form} {x : Sol} (h : Built F x) {cfg : Cfg} (hc : cfg.enable = true) (p : Pre) (os : List Orc)
    (low : Nat → Bool) (e : (solve cfg p os low x).verdict = .unsat) : Refutation F (solve cfg p os low x).proof := by
  have := solve_spec hc (p := p) (os := os) (low := low) h.bok.1
  cases hs : solve cfg p os low x with
  | unsat db => rw [hs] at this; exact this.1
  | _ => rw [hs] at e; simp [Ans.verdict] at e

/-- **C02.** If `solve` answers UNSAT then no assignment satisfies what the solver was given. -/
theorem C02_unsat_answers_are_correct {F : Form} {x : Sol} (h : Built F x) {cfg : Cfg} (hc : cfg.enable = true) (p : Pre) (os : List Orc)
    (low : Nat → Bool) (e : (solve cfg p os low x).verdict = .unsat) : ¬ F.Satisfiable :=
  (additions_refute h hc p os low e).sound

/-- **C02**, `add_clause`: when a clause is rejected as contradictory, no assignment satisfies it and the clauses before it. -/
theorem C02_add_clause_contradiction {F : Form} {x : Sol} (h : Built F x) {v : List Int} {y : Sol} (e : x.addClause v = some (y, some .emptyClause)) :
    ¬ (F ++ [clsOf v]).Satisfiable := by
  obtain ⟨y', e', h1, -, -, -, -, -, h7⟩ := addClause_spec h.bok.1 v
  rw [h1] at e
  simp only [Option.some.injEq, Prod.mk.injEq] at e
  obtain ⟨-, rfl⟩ := e
  rcases h7 with h7 | h7 | h7
  · simp at h7
  · simp at h7
  · exact h7.2.sound

/-- **C02**, `add_assignment`. -/
theorem C02_add_assignment_contradiction {F : Form} {x : Sol} (h : Built F x) {i : Int} {y : Sol} (e : x.addAssignment i = (y, some .rootConflict)) :
    ¬ (F ++ [clsOf [i]]).Satisfiable := by
  obtain ⟨-, -, -, -, -, h6⟩ := addAssignment_spec h.bok.1 i
  rw [e] at h6
  simp only [] at h6
  rcases h6 with h6 | h6 | h6
  · simp at h6
  · simp at h6
  · exact h6.2.sound

/-- Conflicts, learnt clauses and stage changes on an unsatisfiable formula. -/
example : Built (exUnsat.map clsOf) (exSolver 3 exUnsat) ∧
    (solve {} plainPre (List.replicate 9 stageOrc) noLow (exSolver 3 exUnsat)).verdict = .unsat ∧
    (solve {} plainPre (List.replicate 9 stageOrc) noLow (exSolver 3 exUnsat)).proof ≠ [] :=
  ⟨exBuilt (by decide +kernel), by decide +kernel, by decide +kernel⟩

example : ((exSolver 2 [[1], [-2]]).addClause [-1, 2]).map (·.2) = some (some .emptyClause) ∧
    ((exSolver 2 [[1], [-2]]).addAssignment 2).2 = some .rootConflict := by decide +kernel

/-! ## C50: the configuration -/

/-- **C50, partial.** SAT answers are right for every configuration (C01 has no hypothesis on it). Missing: UNSAT answers when the
eliminator is disabled, see `C50_violated`. -/
theorem C50_any_configuration_partial {F : Form} {x : Sol} (h : Built F x) (cfg : Cfg) (p : Pre) (os : List Orc) (low : Nat → Bool) :
    (∀ vals, (solve cfg p os low x).verdict = .sat vals → Form.sat (valsAsg vals) F) ∧
    (cfg.enable = true → (solve cfg p os low x).verdict = .unsat → ¬ F.Satisfiable) :=
  ⟨fun _ e => C01_sat_answers_are_models h cfg p os low e, fun hc e => C02_unsat_answers_are_correct h hc p os low e⟩

/-- **C50 is violated.** With `enable_eliminator = false` the occurrence lists stay empty, every variable looks pure, and
preprocessing asserts all variables true: the satisfiable formula (¬1 ∨ ¬2) is answered UNSAT. -/
theorem C50_violated : ∃ (F : Form) (x : Sol) (cfg : Cfg) (p : Pre) (os : List Orc) (low : Nat → Bool), Built F x ∧
    (solve cfg p os low x).verdict = .unsat ∧ F.Satisfiable :=
  ⟨_, exSolver 2 [[-1, -2]], { enable := false }, plainPre, [], noLow, exBuilt (by decide +kernel), by decide +kernel,
    fun _ => false, by decide⟩

/-! ## C45: one-shot solving -/

theorem inject_append : ∀ (pre : List (List Int)) (x : Sol) (rest : List (List Int)),
    x.inject (pre ++ rest) = match x.inject pre with | some (y, none) => y.inject rest | r => r
  | [], x, rest => by simp [Sol.inject]
  | c :: cs, x, rest => by
    simp only [List.cons_append, Sol.inject]
    split
    · rfl
    · split
      · rfl
      · rfl
      · exact inject_append cs _ rest

theorem Built.inject : ∀ {v : List (List Int)} {F : Form} {x y : Sol}, Built F x → x.inject v = some (y, none) → Built (F ++ v.map clsOf) y
  | [], F, x, y, h, e => by simp only [Sol.inject, Option.some.injEq, Prod.mk.injEq, and_true] at e; subst e; simpa using h
  | c :: cs, F, x, y, h, e => by
    unfold Sol.inject at e
    split at e
    · simp at e
    · rename_i hb
      split at e
      · simp at e
      · simp at e
      · rename_i z r hr hz
        have hb : ∀ i ∈ c, i ≠ 0 ∧ i.natAbs ≤ x.s.numVars := by
          intro i hi
          simp only [List.any_eq_true, not_exists, not_and, Bool.not_eq_true] at hb
          exact badLit_false (hb i hi)
        have := Built.inject (Built.line h hb hz (by rintro rfl; exact hr rfl)) e
        simpa using this

/-- The clauses are over the variables of the solver. -/
theorem badLit_vec {v : List (List Int)} {c : List Int} (hc : c ∈ v) (h0 : (0 : Int) ∉ c) (x : Sol) (hx : x.s.numVars = vecVars v) :
    c.any x.badLit = false := by
  rw [List.any_eq_false]
  intro i hi
  have := le_vecVars hc hi
  simp only [Sol.badLit, hx, Bool.or_eq_true, decide_eq_true_eq, not_or]
  exact ⟨fun h => h0 (h ▸ hi), by omega⟩

/-- The clauses before the first 0 that are not found contradictory are accepted. -/
theorem tryFrom_prefix {pre post : List (List Int)} (h0 : ∀ c ∈ pre, (0 : Int) ∉ c) :
    (∃ y, (Sol.new (vecVars (pre ++ post))).inject pre = some (y, none) ∧ Built (pre.map clsOf) y ∧ y.s.numVars = vecVars (pre ++ post)) ∨
    (∃ y, (Sol.new (vecVars (pre ++ post))).inject pre = some (y, some .emptyClause) ∧ ¬ Form.Satisfiable (pre.map clsOf)) := by
  obtain ⟨y, e, h1, -, h3, h4⟩ := inject_spec (v := pre) (bok_new (vecVars (pre ++ post)))
  rcases h4 with ⟨rfl, -⟩ | ⟨rfl, c, hc, hb⟩ | ⟨rfl, a, c, b, e, hr⟩
  · have := (Built.new (vecVars (pre ++ post))).inject h1
    exact .inl ⟨y, h1, by simpa using this, h3⟩
  · rw [badLit_vec (v := pre ++ post) (by simp [hc]) (h0 c hc) _ rfl] at hb
    cases hb
  · refine .inr ⟨y, h1, fun ⟨b', hs⟩ => hr.sound ⟨b', fun d hd => hs d ?_⟩⟩
    rw [e]
    simp only [List.nil_append, List.mem_map, List.mem_append, List.mem_cons, List.not_mem_nil, or_false] at hd ⊢
    obtain ⟨q, hq, rfl⟩ := hd
    exact ⟨q, by tauto, rfl⟩

/-- **C45.** A model found by one-shot solving satisfies the formula and lists one literal per variable of the formula. -/
theorem C45_sat (p : Pre) (os : List Orc) (low : Nat → Bool) (v : List (List Int)) {vals : List Int} (e : certify p os low v = .sat vals) :
    Form.sat (valsAsg vals) (v.map clsOf) ∧ Canonical vals (vecVars v) := by
  unfold certify at e
  obtain ⟨y, err, h1, -, h3, h4⟩ := tryFrom_spec v
  rw [h1] at e
  rcases h4 with ⟨rfl, hb⟩ | ⟨rfl, -⟩ | ⟨rfl, -⟩
  · simp only [] at e
    have hb := (Built.new (vecVars v)).inject h1
    rw [List.nil_append] at hb
    obtain ⟨a, b⟩ := hb.sat e
    rw [h3] at a
    exact ⟨b, a⟩
  · simp at e
  · simp at e

/-- **C45.** If one-shot solving answers UNSAT then the formula is unsatisfiable. -/
theorem C45_unsat (p : Pre) (os : List Orc) (low : Nat → Bool) (v : List (List Int)) (e : certify p os low v = .unsat) :
    ¬ (Form.Satisfiable (v.map clsOf)) := by
  unfold certify at e
  obtain ⟨y, err, h1, -, h3, h4⟩ := tryFrom_spec v
  rw [h1] at e
  rcases h4 with ⟨rfl, hb⟩ | ⟨rfl, -⟩ | ⟨rfl, a, c, b, e', hr⟩
  · simp only [] at e
    have hb := (Built.new (vecVars v)).inject h1
    rw [List.nil_append] at hb
    exact C02_unsat_answers_are_correct hb rfl p os low e
  · simp at e
  · rintro ⟨b', hs⟩
    refine hr.sound ⟨b', fun d hd => hs d ?_⟩
    rw [e']
    simp only [List.mem_map, List.mem_append, List.mem_cons, List.not_mem_nil, or_false] at hd ⊢
    obtain ⟨q, hq, rfl⟩ := hd
    exact ⟨q, by tauto, rfl⟩

/-- **C45.** A formula with an empty clause is UNSAT (if no 0 occurs before it). -/
theorem C45_empty_clause (p : Pre) (os : List Orc) (low : Nat → Bool) (pre post : List (List Int)) (h0 : ∀ c ∈ pre, (0 : Int) ∉ c) :
    certify p os low (pre ++ [] :: post) = .unsat := by
  unfold certify Sol.tryFrom
  rw [inject_append]
  rcases tryFrom_prefix (post := [] :: post) h0 with ⟨y, e, -⟩ | ⟨y, e, -⟩
  · rw [e]; simp [Sol.inject, Sol.addUnchecked]
  · rw [e]

/-- **C45.** The literal 0 is reported as invalid, unless the clauses before it are already contradictory. -/
theorem C45_invalid_literal (p : Pre) (os : List Orc) (low : Nat → Bool) (pre : List (List Int)) (c : List Int) (post : List (List Int))
    (h0 : ∀ d ∈ pre, (0 : Int) ∉ d) (hc : (0 : Int) ∈ c) (hs : Form.Satisfiable (pre.map clsOf)) :
    certify p os low (pre ++ c :: post) = .error (some .invalidLiteral) := by
  unfold certify Sol.tryFrom
  rw [inject_append]
  rcases tryFrom_prefix (post := c :: post) h0 with ⟨y, e, -⟩ | ⟨y, e, h⟩
  · rw [e]
    have : c.any y.badLit = true := List.any_eq_true.2 ⟨0, hc, by simp [Sol.badLit]⟩
    simp [Sol.inject, this]
  · exact absurd hs h

/-- **C45.** A formula without 0 is answered UNSAT, or the answer is the one of `solve` on the solver that was given the formula. -/
theorem C45_otherwise (p : Pre) (os : List Orc) (low : Nat → Bool) (v : List (List Int)) (h0 : ∀ c ∈ v, (0 : Int) ∉ c) :
    certify p os low v = .unsat ∨ ∃ x, Built (v.map clsOf) x ∧ x.s.numVars = vecVars v ∧ certify p os low v = (solve {} p os low x).verdict := by
  have := tryFrom_prefix (pre := v) (post := []) h0
  rw [List.append_nil] at this
  unfold certify Sol.tryFrom
  rcases this with ⟨y, e, hb, hn⟩ | ⟨y, e, -⟩
  · rw [e]; exact .inr ⟨y, hb, hn, rfl⟩
  · rw [e]; exact .inl rfl

/-- The errors are looked for clause by clause: here the contradiction comes first and the 0 is not reported. -/
theorem C45_order_matters (p : Pre) (os : List Orc) (low : Nat → Bool) :
    certify p os low [[1], [-1], [0]] = .unsat ∧ certify p os low [[0], [1], [-1]] = .error (some .invalidLiteral) := by
  constructor
  · have : (Sol.tryFrom [[1], [-1], [0]]).map (·.2) = some (some .emptyClause) := by decide +kernel
    obtain ⟨⟨y, e⟩, h1, h2⟩ := Option.map_eq_some_iff.1 this
    simp only [] at h2; subst h2
    unfold certify; rw [h1]
  · exact C45_invalid_literal p os low [] [0] [[1], [-1]] (by simp) (by simp) ⟨fun _ => true, by simp [Form.sat]⟩

/-! The empty formula: no step has anything to do. -/

theorem viv_empty (cids : List Nat) : vivify cids ((Sol.new 0).db, (Sol.new 0).s) = .ok ((Sol.new 0).db, (Sol.new 0).s) := by
  have : ∀ cids, vivLoop cids ((Sol.new 0).db, (Sol.new 0).s) = .ok ((Sol.new 0).db, (Sol.new 0).s) := by
    intro cids
    induction cids with
    | nil => rfl
    | cons c cs ih =>
      have : vivOne ((Sol.new 0).db, (Sol.new 0).s) c = .ok ((Sol.new 0).db, (Sol.new 0).s) := rfl
      unfold vivLoop; rw [this]; exact ih
  unfold vivify
  have h1 : propRemains ((Sol.new 0).db, (Sol.new 0).s) = .ok ((Sol.new 0).db, (Sol.new 0).s) := rfl
  rw [h1]
  simp only [Res.bind]
  split
  · rfl
  · rw [this]; rfl

theorem cmds_empty (evo : Nat) (cs : List ECmd) : runCmds evo cs (((Sol.new 0).db, (Sol.new 0).s), El.new) = .ok (((Sol.new 0).db, (Sol.new 0).s), El.new) := by
  induction cs with
  | nil => rfl
  | cons c cs ih =>
    have : runCmd evo (((Sol.new 0).db, (Sol.new 0).s), El.new) c = .ok (((Sol.new 0).db, (Sol.new 0).s), El.new) := by
      cases c with
      | subsume cid did => simp only [runCmd]; rw [if_pos (.inr (.inl rfl))]
      | lifted l did => simp only [runCmd]; rw [if_pos (.inl (by simp [Sol.new, Stk.new]))]
      | elimVar v =>
        simp only [runCmd]; rw [if_pos]
        rcases Nat.eq_zero_or_pos v with h | h
        · exact .inl h
        · exact .inr (.inl h)
      | propagate => rfl
      | retain v b =>
        simp only [runCmd, Res.ok.injEq, Prod.mk.injEq, true_and]
        unfold El.keep El.new
        congr 1 <;> funext u <;> simp [upd]
    unfold runCmds; rw [this]; exact ih

/-- **C45.** The empty formula has the empty model (unless a resource limit is hit). -/
theorem C45_empty_formula (p : Pre) (os : List Orc) (low : Nat → Bool) (h0 : p.oom = false) (h1 : p.oom1 = false) (h2 : p.oom2 = false) :
    certify p os low [] = .sat [] := by
  have hp : preprocess {} p (Sol.new 0) = .ok (Sol.new 0) := by
    unfold preprocess
    rw [viv_empty, h0, h1, h2]
    have e1 : (Stk.propagateSandbox (Sol.new 0).db (Sol.new 0).s).toRes = .ok ((Sol.new 0).db, (Sol.new 0).s) := rfl
    simp only [Res.bind, e1, Bool.false_eq_true, if_false, Res.orOom]
    have e2 : prepare true 20000 (Sol.new 0).cnf ((Sol.new 0).db, (Sol.new 0).s) = .ok (((Sol.new 0).db, (Sol.new 0).s), El.new) := rfl
    simp only [e2]
    have e3 : pureLoop (Sol.new 0).cnf El.new (Sol.new 0).s.numVars 1 ((Sol.new 0).db, (Sol.new 0).s) = .ok ((Sol.new 0).db, (Sol.new 0).s) := rfl
    simp only [e3, simplify, if_true, cmds_empty, Res.bind, Bool.false_eq_true, if_false]
    rfl
  have hs : ∀ os, search {} os (Sol.new 0) = .ok (Sol.new 0) := by intro os; cases os <;> rfl
  have e : Sol.tryFrom [] = some (Sol.new 0, none) := rfl
  unfold certify solve
  rw [e]
  simp only [hp, Res.bind, hs]
  rfl

end Splr
