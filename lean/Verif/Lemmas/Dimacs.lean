import Verif.Model.Dimacs
import Verif.Spec.Dimacs
import Verif.Lemmas.Text
namespace Splr.Dimacs
open Text

theorem blank_ws {s : List Char} (h : Blank s) : ∀ c ∈ s, isWs c = true := by
  intro c hc; rcases h c hc with rfl | rfl | rfl <;> decide

theorem blank_nl {s : List Char} (h : Blank s) : '\n' ∉ s := by
  intro hc; rcases h _ hc with h | h | h <;> simp at h

theorem text_split (l : Line) (h : l.Wf) : ∃ t, l.text = t ++ ['\n'] ∧ '\n' ∉ t := by
  cases l with
  | comment t => exact ⟨'c' :: t, rfl, by simpa [Line.Wf] using h⟩
  | clause pre lits post =>
    refine ⟨pre ++ (lits.flatMap fun p => showInt p.1 ++ p.2) ++ '0' :: post, rfl, ?_⟩
    simp only [List.mem_append, List.mem_flatMap, List.mem_cons, not_or, not_exists, not_and]
    refine ⟨⟨blank_nl h.1, fun p hp => ⟨fun hc => numChar_ne_nl (showInt_numChar _ _ hc) rfl, blank_nl (h.2.2 p hp).2.2.1⟩⟩,
      by decide, blank_nl h.2.1⟩

theorem readLines_text (l : Line) (h : l.Wf) (rest : List Char) :
    readLines (l.text ++ rest) = l.text :: readLines rest := by
  obtain ⟨t, e, hn⟩ := text_split l h
  rw [e]
  have := readLines_append t hn rest
  simpa using this

theorem readLines_body (ls : List Line) (h : ∀ l ∈ ls, l.Wf) : readLines (ls.flatMap Line.text) = ls.map Line.text := by
  induction ls with
  | nil => rfl
  | cons l ls ih =>
    rw [List.flatMap_cons, readLines_text l (h l (by simp)), ih (fun x hx => h x (by simp [hx]))]; rfl

theorem words_lits (lits : List (Int × List Char)) (h : ∀ p ∈ lits, p.1 ≠ 0 ∧ IsI32 p.1 ∧ Blank p.2 ∧ p.2 ≠ [])
    (rest : List Char) :
    words ((lits.flatMap fun p => showInt p.1 ++ p.2) ++ rest) = lits.map (fun p => showInt p.1) ++ words rest := by
  induction lits with
  | nil => rfl
  | cons p lits ih =>
    have hp := h p (by simp)
    rw [List.flatMap_cons, List.append_assoc]
    rw [words_word (showInt p.1) (showInt_ne_nil _) (fun x hx => numChar_not_ws (showInt_numChar _ x hx)) p.2 _ hp.2.2.2
      (blank_ws hp.2.2.1), ih (fun q hq => h q (by simp [hq]))]
    rfl

theorem parse_zero : parseI32 ['0'] = some 0 := by decide

theorem lineLits_map (is : List Int) (h : ∀ i ∈ is, i ≠ 0 ∧ IsI32 i) (rest : List (List Char)) :
    lineLits (is.map showInt ++ ['0'] :: rest) = (is, true) := by
  induction is with
  | nil => simp [lineLits, parse_zero]
  | cons i is ih =>
    have hi := h i (by simp)
    simp only [List.map_cons, List.cons_append, lineLits, parseI32_showInt hi.2, if_neg hi.1]
    rw [ih (fun j hj => h j (by simp [hj]))]

theorem words_clause {pre lits post} (h : (Line.clause pre lits post).Wf) :
    words (Line.clause pre lits post).text = (lits.map (·.1)).map showInt ++ [['0']] := by
  simp only [Line.text, List.append_assoc]
  rw [words_ws pre _ (blank_ws h.1), words_lits lits h.2.2]
  have := words_word ['0'] (by simp) (by decide) (post ++ ['\n']) [] (by simp) (by
    intro c hc; simp at hc; rcases hc with hc | rfl
    · exact blank_ws h.2.1 c hc
    · decide)
  simp only [List.append_nil, List.cons_append, List.nil_append] at this
  rw [List.cons_append, this]; simp [words]

theorem not_c_clause {pre lits post} (h : (Line.clause pre lits post).Wf) :
    startsWith ['c'] (Line.clause pre lits post).text = false := by
  have key : ∀ (x : Char) (xs : List Char), x ≠ 'c' → startsWith ['c'] (x :: xs) = false := by
    intro x xs hx; simp [startsWith, List.isPrefixOf, Ne.symm hx]
  cases pre with
  | cons b bs =>
    simp only [Line.text, List.cons_append]
    apply key
    rcases h.1 b (by simp) with rfl | rfl | rfl <;> decide
  | nil =>
    cases lits with
    | nil => simp only [Line.text, List.nil_append, List.flatMap_nil, List.cons_append]; exact key _ _ (by decide)
    | cons p ps =>
      simp only [Line.text, List.nil_append, List.flatMap_cons]
      cases e : showInt p.1 with
      | nil => exact absurd e (showInt_ne_nil _)
      | cons d ds =>
        simp only [List.cons_append]
        apply key
        rintro rfl
        have := showInt_numChar p.1 'c' (by rw [e]; simp)
        rcases this with h | h
        · exact absurd h (by decide)
        · exact absurd h (by decide)

theorem lineAct_comment (t : List Char) : lineAct (Line.comment t).text = .skip := by
  simp [lineAct, Line.text, startsWith, List.isPrefixOf]

theorem lineAct_clause {pre lits post} (h : (Line.clause pre lits post).Wf) :
    lineAct (Line.clause pre lits post).text =
      if lits = [] then .empty else .clause (lits.map (·.1)) := by
  unfold lineAct
  rw [not_c_clause h, words_clause h, lineLits_map _ (by
    intro i hi; simp only [List.mem_map] at hi; obtain ⟨p, hp, rfl⟩ := hi; exact ⟨(h.2.2 p hp).1, (h.2.2 p hp).2.1⟩)]
  simp

theorem injectLines_spec (ls : List Line) (h : ∀ l ∈ ls, l.Wf) :
    injectLines (ls.map Line.text) = if [] ∈ clausesOf ls then none else some (clausesOf ls) := by
  induction ls with
  | nil => rfl
  | cons l ls ih =>
    have ih := ih (fun x hx => h x (by simp [hx]))
    cases l with
    | comment t => simp only [List.map_cons, injectLines, lineAct_comment, clausesOf]; exact ih
    | clause pre lits post =>
      have hl := lineAct_clause (h (.clause pre lits post) (by simp))
      simp only [List.map_cons, injectLines, hl, clausesOf]
      cases lits with
      | nil => simp
      | cons p ps =>
        simp only [ih]
        by_cases hm : [] ∈ clausesOf ls <;> simp [hm]

theorem header_comment (t : List Char) : header (Line.comment t).text = .no := by
  unfold header
  have key : ∀ s, ∀ ws, words ('c' :: s) ≠ ['p'] :: ws := by
    intro s ws h
    rw [words.eq_def] at h
    simp only [show isWs 'c' = false by decide] at h
    cases s with
    | nil => simp at h
    | cons d ds =>
      simp only at h
      split at h
      · simp at *
      · split at h
        · simp at h
        · split at h <;> simp at h
  split
  · rename_i e; exact absurd e (key _ _)
  · rfl

theorem words_header (nv nc : Nat) :
    words ("p cnf ".toList ++ showNat nv ++ [' '] ++ showNat nc ++ ['\n']) =
      [['p'], ['c', 'n', 'f'], showNat nv, showNat nc] := by
  have hd : ∀ n, ∀ c ∈ showNat n, isWs c = false := fun n c hc => numChar_not_ws (.inl (showNat_digits n c hc))
  have e0 : "p cnf ".toList = ['p'] ++ [' '] ++ (['c','n','f'] ++ [' '] ++ []) := by decide
  rw [e0]
  simp only [List.append_assoc]
  rw [← List.append_assoc, words_word ['p'] (by simp) (by decide) [' '] _ (by simp) (by decide)]
  rw [← List.append_assoc, words_word ['c','n','f'] (by simp) (by decide) [' '] _ (by simp) (by decide)]
  rw [List.nil_append, ← List.append_assoc, words_word (showNat nv) (showNat_ne_nil _) (hd nv) [' '] _ (by simp) (by decide)]
  have := words_word (showNat nc) (showNat_ne_nil _) (hd nc) ['\n'] [] (by simp) (by decide)
  rw [List.append_nil] at this
  rw [this]; simp [words]

theorem header_ok {nv nc : Nat} (h1 : nv < 18446744073709551616) (h2 : nc < 18446744073709551616) :
    header ("p cnf ".toList ++ showNat nv ++ [' '] ++ showNat nc ++ ['\n']) = .yes nv nc := by
  unfold header
  rw [words_header]
  simp [parseUsize_showNat h1, parseUsize_showNat h2]

theorem header_no_nl (nv nc : Nat) : '\n' ∉ "p cnf ".toList ++ showNat nv ++ [' '] ++ showNat nc := by
  have hd : ∀ n, '\n' ∉ showNat n := fun n h => numChar_ne_nl (.inl (showNat_digits n _ h)) rfl
  simp [hd]

theorem openCnf_file (pre : List (List Char)) (nv nc : Nat) (body : List Line) (hp : ∀ t ∈ pre, '\n' ∉ t)
    (hb : ∀ l ∈ body, l.Wf) (h1 : nv < 18446744073709551616) (h2 : nc < 18446744073709551616) :
    openCnf (readLines (fileText pre nv nc body)) = .ok nv nc (body.map Line.text) := by
  unfold fileText
  induction pre with
  | nil =>
    have e := readLines_append _ (header_no_nl nv nc) (body.flatMap Line.text)
    simp only [List.flatMap_nil, List.nil_append, List.append_assoc, List.cons_append] at e ⊢
    rw [e, readLines_body body hb]
    have hh := header_ok h1 h2
    simp only [List.append_assoc, List.cons_append, List.nil_append] at hh
    simp only [openCnf, hh]
  | cons t pre ih =>
    have ih := ih (fun x hx => hp x (by simp [hx]))
    simp only [List.flatMap_cons, List.append_assoc] at ih ⊢
    rw [readLines_text (.comment t) (hp t (by simp)), openCnf, header_comment]
    exact ih

end Splr.Dimacs
