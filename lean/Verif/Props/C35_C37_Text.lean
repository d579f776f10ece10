import Verif.Lemmas.CnfBuilder
/-! # C35 (answer files), C36 (DIMACS input), C37 (CNF builder) -/
namespace Splr.Dimacs
open Text

/-! ## C36 -/

/-- **C36.** A DIMACS file with comments anywhere and one clause per line, in any layout of blanks, gives the solver
the declared number of variables and exactly the clauses written, in order; a file containing an empty clause
is reported as `EmptyClause`. -/
theorem C36_reads_as_written (pre : List (List Char)) (nv nc : Nat) (body : List Line)
    (hp : ∀ t ∈ pre, '\n' ∉ t) (hb : ∀ l ∈ body, l.Wf) (h1 : nv < 2 ^ 64) (h2 : nc < 2 ^ 64) :
    build (fileText pre nv nc body) =
      if [] ∈ clausesOf body then .emptyClause else .ok nv (clausesOf body) := by
  unfold build
  rw [openCnf_file pre nv nc body hp hb h1 h2]
  simp only [injectLines_spec body hb]
  by_cases h : [] ∈ clausesOf body <;> simp [h]

example : build "c hello\np cnf 3 2\n1 -2 0\nc x\n  3\t2  0 \n".toList = .ok 3 [[1, -2], [3, 2]] := by decide +kernel

/-- Outside that format the reader departs from the DIMACS grammar. A clause written over two lines is read as two
clauses; a second clause on a line is dropped; a literal that does not fit `i32` is dropped. -/
theorem C36_other_layouts :
    build "p cnf 3 1\n1 2\n3 0\n".toList = .ok 3 [[1, 2], [3]] ∧
    build "p cnf 3 2\n1 2 0 3 0\n".toList = .ok 3 [[1, 2]] ∧
    build "p cnf 3 1\n1 3000000000 0\n".toList = .ok 3 [[1]] := by decide +kernel

/-- Literals above the declared number of variables are handed to the solver unchecked. -/
theorem C36_no_range_check : build "p cnf 1 1\n1 5 0\n".toList = .ok 1 [[1, 5]] := by decide +kernel

/-! ## C35 -/

theorem vLits_map (v : List Int) (h : ∀ i ∈ v, i ≠ 0 ∧ IsI32 i) : vLits (v.map showInt ++ [['0']]) = some v := by
  induction v with
  | nil => decide
  | cons i v ih =>
    have hi := h i (by simp)
    simp only [List.map_cons, List.cons_append, vLits, parseI32_showInt hi.2, if_neg hi.1]
    rw [ih (fun j hj => h j (by simp [hj]))]; rfl

/-- **C35.** The answer file written for a model is read back by dmcr as the same list of literals. -/
theorem C35_answer_roundtrip (comments : List (List Char)) (model : List Int)
    (hc : ∀ t ∈ comments, '\n' ∉ t ∧ ∃ r, t = 'c' :: r) (hm : ∀ i ∈ model, i ≠ 0 ∧ IsI32 i) :
    readAnswer (readLines (answerText comments model)) = .some_ model := by
  unfold answerText
  induction comments with
  | nil =>
    have e : "s SATISFIABLE\nv ".toList = "s SATISFIABLE".toList ++ '\n' :: ['v', ' '] := by decide
    rw [e]
    have e1 := readLines_append "s SATISFIABLE".toList (by decide)
      ('v' :: ' ' :: ((model.flatMap fun x => showInt x ++ [' ']) ++ "0\n".toList))
    have e2 := readLines_append ('v' :: ' ' :: ((model.flatMap fun x => showInt x ++ [' ']) ++ ['0'])) (by
      simp only [List.mem_cons, List.mem_append, List.mem_flatMap, not_or, not_exists, not_and]
      exact ⟨by decide, by decide, fun i _ => ⟨fun h => numChar_ne_nl (showInt_numChar i _ h) rfl, by decide⟩, by decide⟩) []
    have e3 : "0\n".toList = ['0'] ++ ['\n'] := by decide
    rw [e3] at e1
    simp only [List.flatMap_nil, List.nil_append, List.append_assoc, List.cons_append] at e1 e2 ⊢
    rw [e3]
    simp only [List.cons_append, List.nil_append, List.append_assoc] at e1 e2 ⊢
    rw [e1, e2]
    have hw := words_lits (model.map fun i => (i, [' '])) (by
      intro p hp; simp at hp; obtain ⟨i, hi, rfl⟩ := hp
      exact ⟨(hm i hi).1, (hm i hi).2, by simp [Blank], by simp⟩) ['0', '\n']
    rw [List.flatMap_map] at hw
    have h0 : words ['0', '\n'] = [['0']] := by decide
    rw [h0] at hw
    simp only [List.map_map, Function.comp_def] at hw
    have c1 : startsWith ['c'] ("s SATISFIABLE".toList ++ ['\n']) = false := by decide
    have c2 : startsWith ['s', ' '] ("s SATISFIABLE".toList ++ ['\n']) = true := by decide
    have c3 : startsWith "s SATISFIABLE".toList ("s SATISFIABLE".toList ++ ['\n']) = true := by decide
    have d1 : ∀ r, startsWith ['c'] ('v' :: ' ' :: r) = false := by
      intro r; simp [startsWith, List.isPrefixOf]
    have d2 : ∀ r, startsWith ['s', ' '] ('v' :: ' ' :: r) = false := by
      intro r; simp [startsWith, List.isPrefixOf]
    simp only [readAnswer, c1, c2, c3, d1, d2, hw, vLits_map model hm]
    simp
  | cons t comments ih =>
    have ih := ih (fun x hx => hc x (by simp [hx]))
    obtain ⟨h1, r, rfl⟩ := hc t (by simp)
    have := readLines_append ('c' :: r) h1
    simp only [List.flatMap_cons, List.append_assoc, List.cons_append, List.nil_append] at ih this ⊢
    have h2 : startsWith ['c'] ('c' :: (r ++ ['\n'])) = true := by simp [startsWith, List.isPrefixOf]
    rw [this]
    unfold readAnswer
    rw [h2]
    exact ih

example : readAnswer (readLines (answerText ["c a report".toList, "c ".toList] [1, -2, 3])) = .some_ [1, -2, 3] := by
  decide +kernel

/-! ## C37 -/

/-- **C37, partial.** A CNF with at least one clause, built by `add_clause`, whose literals are non-zero `i32`s, is
dumped to a text that both `Solver::build` and `CNF::load` read as the same clauses and variables. Missing: unit
clauses given to `from_vec_i32` and the empty CNF, for which the claim is false (below). -/
theorem C37_roundtrip_partial (f : CNF) (a : Added f) (h0 : f.clauses ≠ [])
    (hg : ∀ c ∈ f.clauses, ∀ i ∈ c, i ≠ 0 ∧ IsI32 i) (hv : f.numVars < 2 ^ 64) (hn : f.clauses.length < 2 ^ 64) :
    build f.dump = .ok f.numVars f.clauses ∧
    ∃ g, CNF.load f.dump = .ok g ∧ g.clauses = f.clauses ∧ g.numVars = f.numVars := by
  have inv := added_inv a
  have hwf : ∀ l ∈ f.clauses.map lineOf, l.Wf := by
    intro l hl; simp only [List.mem_map] at hl; obtain ⟨c, hc, rfl⟩ := hl; exact lineOf_wf (hg c hc)
  rw [dump_text f h0 inv.nonempty]
  constructor
  · rw [C36_reads_as_written [] _ _ _ (by simp) hwf hv hn, clausesOf_lineOf, if_neg]
    intro hm; exact inv.nonempty _ hm rfl
  · have hl : readLines (fileText [] f.numVars f.clauses.length (f.clauses.map lineOf)) =
        ("p cnf ".toList ++ showNat f.numVars ++ [' '] ++ showNat f.clauses.length ++ ['\n']) ::
          f.clauses.map (fun c => (lineOf c).text) := by
      unfold fileText
      have e := readLines_append _ (header_no_nl f.numVars f.clauses.length) ((f.clauses.map lineOf).flatMap Line.text)
      simp only [List.flatMap_nil, List.nil_append, List.append_assoc, List.cons_append] at e ⊢
      rw [e, readLines_body _ hwf, List.map_map]; rfl
    unfold CNF.load
    rw [hl, List.foldlM_cons]
    have hh := header_ok hv hn
    have hline : loadLine ⟨none, CNF.empty, 0, false⟩
        ("p cnf ".toList ++ showNat f.numVars ++ [' '] ++ showNat f.clauses.length ++ ['\n']) =
        .ok ⟨some (f.numVars, f.clauses.length), { CNF.empty with noCheck := decide (100000 < f.clauses.length) }, 0, false⟩ := by
      unfold loadLine
      have e1 : "p cnf ".toList = 'p' :: " cnf ".toList := by decide
      rw [if_neg (by simp [e1])]
      have e2 : startsWith ['c'] ("p cnf ".toList ++ showNat f.numVars ++ [' '] ++ showNat f.clauses.length ++ ['\n']) = false := by
        rw [e1]; simp [startsWith, List.isPrefixOf]
      rw [e2]
      simp only [Bool.false_eq_true, if_false, hh]
    rw [hline]
    obtain ⟨s', es, h1, h2, h3, h4⟩ := load_loop f.clauses
      ⟨some (f.numVars, f.clauses.length), { CNF.empty with noCheck := decide (100000 < f.clauses.length) }, 0, false⟩
      rfl rfl (fun c hc => ⟨hg c hc, inv.nonempty c hc⟩) rfl (by
        by_cases hlen : 100000 < f.clauses.length
        · left; simp [hlen]
        · right
          have hnc : f.noCheck = false := by
            cases hb : f.noCheck
            · rfl
            · exact absurd (inv.nocheck hb) hlen
          refine ⟨by simp [CNF.empty]; omega, (inv.check hnc).1, by simp [CNF.empty]⟩)
    have es2 : List.foldlM loadLine
        ⟨some (f.numVars, f.clauses.length), { CNF.empty with noCheck := decide (100000 < f.clauses.length) }, 0, false⟩
        (f.clauses.map fun c => (lineOf c).text) = .ok s' := es
    have h3' : s'.cnf.clauses = f.clauses := by simpa [CNF.empty] using h3
    refine ⟨s'.cnf, ?_, h3', ?_⟩
    · simp only [bind, Except.bind, es2, h1, h2, h3']
      simp
    · rw [h4, inv.vars]; rfl

example : ∃ f, Added f ∧ f.clauses = [[1, -2], [3]] ∧ String.ofList f.dump = "p cnf 3 2\n1 -2 0\n3 0\n" := by
  refine ⟨⟨3, [], [[1, -2], [3]], [[3], [-2, 1]], false⟩,
    .add [3] (.add (f' := ⟨2, [], [[1, -2]], [[-2, 1]], false⟩) [1, -2] .empty rfl) rfl, rfl, by decide +kernel⟩

deriving instance DecidableEq for Except

/-- **C37 is false of the code** in two ways. Unit clauses given to `from_vec_i32` do not appear in the dump; and a CNF
without stored clauses (the empty formula, or one consisting of unit clauses) is dumped as a file holding an empty
clause, which the solver answers as unsatisfiable and `load` refuses. -/
theorem C37_violated :
    (∃ f, CNF.fromVec [[1], [1, 2]] = .ok f ∧ build f.dump = .ok 2 [[1, 2]]) ∧
    (∃ f, CNF.fromVec [] = .ok f ∧ build f.dump = .emptyClause ∧ CNF.load f.dump = .error .emptyClause) ∧
    (∃ f, CNF.fromVec [[1]] = .ok f ∧ build f.dump = .emptyClause) := by
  refine ⟨⟨_, rfl, by decide +kernel⟩, ⟨_, rfl, by decide +kernel, by decide +kernel⟩, ⟨_, rfl, by decide +kernel⟩⟩

/-- `load` splits a line at single spaces only and so loses a literal directly before the line end. -/
theorem C37_load_drops_last :
    (CNF.load "p cnf 2 1\n1 2\n".toList).toOption.map (·.clauses) = some [[1]] := by decide +kernel

end Splr.Dimacs
