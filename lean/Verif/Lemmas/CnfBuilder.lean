import Verif.Lemmas.Dimacs
namespace Splr.Dimacs
open Text

/-- the CNFs that `add_clause` can build -/
inductive Added : CNF → Prop where
  | empty : Added CNF.empty
  | add {f f' : CNF} (c : List Int) (a : Added f) (e : f.addClause c = .ok f') : Added f'

structure AInv (f : CNF) : Prop where
  nonempty : ∀ c ∈ f.clauses, c ≠ []
  check : f.noCheck = false → (f.clauses.map sortInts).Nodup ∧ ∀ x, x ∈ f.clsMap ↔ x ∈ f.clauses.map sortInts
  nocheck : f.noCheck = true → 100000 < f.clauses.length
  vars : f.numVars = f.clauses.foldl (fun m c => max m (maxVar c)) 0

theorem addClause_ok {f f' : CNF} {c : List Int} (e : f.addClause c = .ok f') :
    c ≠ [] ∧ f'.clauses = f.clauses ++ [c] ∧ f'.numVars = max f.numVars (maxVar c) := by
  unfold CNF.addClause at e
  by_cases h1 : (!f.noCheck && decide (100000 < f.clauses.length)) = true
  · simp only [h1, if_true, Bool.not_true, Bool.false_and, Bool.false_eq_true, if_false] at e
    split at e
    · cases e
    · rename_i hc; cases e; exact ⟨hc, rfl, rfl⟩
  · simp only [h1, Bool.false_eq_true, if_false] at e
    split at e
    · cases e
    · split at e
      · cases e
      · rename_i hc; cases e; exact ⟨hc, rfl, rfl⟩

theorem added_inv {f : CNF} (a : Added f) : AInv f := by
  induction a with
  | empty => exact ⟨by simp [CNF.empty], by simp [CNF.empty], by simp [CNF.empty], rfl⟩
  | @add f f' c a e ih =>
    obtain ⟨hc, hcl, hv⟩ := addClause_ok e
    refine ⟨?_, ?_, ?_, ?_⟩
    · intro x hx; rw [hcl] at hx; simp at hx; rcases hx with hx | rfl
      · exact ih.nonempty x hx
      · exact hc
    · intro hn
      unfold CNF.addClause at e
      by_cases h1 : (!f.noCheck && decide (100000 < f.clauses.length)) = true
      · simp only [h1, if_true, Bool.not_true, Bool.false_and, Bool.false_eq_true, if_false] at e
        split at e <;> cases e
        simp at hn
      · simp only [h1, Bool.false_eq_true, if_false, if_neg hc] at e
        by_cases hne : (!f.noCheck && f.clsMap.contains (sortInts c)) = true
        · rw [if_pos hne] at e; cases e
        · rw [if_neg hne] at e
          cases e
          have hn' : f.noCheck = false := hn
          obtain ⟨hnd, hm⟩ := ih.check hn'
          have hnot : sortInts c ∉ f.clsMap := by
            intro hin; apply hne; simp [hn', hin]
          simp only [hn', Bool.false_eq_true, if_false, List.map_append, List.map_cons, List.map_nil]
          refine ⟨?_, ?_⟩
          · rw [List.nodup_append]
            refine ⟨hnd, by simp, ?_⟩
            intro x hx y hy; simp at hy; subst hy
            rintro rfl; exact hnot ((hm _).2 hx)
          · intro x; rw [List.mem_cons, hm x]; simp only [List.mem_append, List.mem_singleton]
            exact Or.comm
    · intro hn
      rw [hcl]
      unfold CNF.addClause at e
      by_cases h1 : (!f.noCheck && decide (100000 < f.clauses.length)) = true
      · simp at h1; simp; omega
      · simp only [h1, Bool.false_eq_true, if_false, if_neg hc] at e
        by_cases hne : (!f.noCheck && f.clsMap.contains (sortInts c)) = true
        · rw [if_pos hne] at e; cases e
        · rw [if_neg hne] at e
          cases e
          have hn' : f.noCheck = true := hn
          have := ih.nocheck hn'; simp; omega
    · rw [hv, ih.vars, hcl]; simp

/-! ### the text of a dump -/

/-- a clause as `dump_to_string` lays it out -/
def lineOf (c : List Int) : Line := .clause [] (c.map fun i => (i, [' '])) []

def good (c : List Int) : Prop := ∀ i ∈ c, i ≠ 0 ∧ IsI32 i

theorem lineOf_wf {c : List Int} (h : good c) : (lineOf c).Wf := by
  refine ⟨by simp [Blank], by simp [Blank], ?_⟩
  intro p hp; simp at hp; obtain ⟨i, hi, rfl⟩ := hp
  exact ⟨(h i hi).1, (h i hi).2, by simp [Blank], by simp⟩

theorem lineOf_text (c : List Int) :
    (lineOf c).text = (c.flatMap fun i => showInt i ++ [' ']) ++ ['0', '\n'] := by
  simp [lineOf, Line.text, List.flatMap_map]

theorem intercalate_text (c : List Int) (hc : c ≠ []) :
    [' '].intercalate (c.map showInt) ++ " 0\n".toList = (lineOf c).text := by
  rw [lineOf_text]
  have e : " 0\n".toList = [' ', '0', '\n'] := by decide
  rw [e]
  induction c with
  | nil => exact absurd rfl hc
  | cons i c ih =>
    cases c with
    | nil => simp [List.intercalate]
    | cons j c =>
      have ih := ih (by simp)
      simp only [List.map_cons, List.flatMap_cons, List.append_assoc] at ih ⊢
      rw [← ih]
      simp [List.intercalate]

theorem dump_body (cs : List (List Int)) (h0 : cs ≠ []) (hc : ∀ c ∈ cs, c ≠ []) :
    (" 0\n".toList).intercalate (cs.map fun c => [' '].intercalate (c.map showInt)) ++ " 0\n".toList =
      cs.flatMap fun c => (lineOf c).text := by
  induction cs with
  | nil => exact absurd rfl h0
  | cons c cs ih =>
    have hcc := intercalate_text c (hc c (by simp))
    cases cs with
    | nil => simpa [List.intercalate] using hcc
    | cons d cs =>
      have ih := ih (by simp) (fun x hx => hc x (by simp [hx]))
      rw [List.flatMap_cons, ← ih, ← hcc]
      simp [List.intercalate]

theorem dump_text (f : CNF) (h0 : f.clauses ≠ []) (hc : ∀ c ∈ f.clauses, c ≠ []) :
    f.dump = fileText [] f.numVars f.clauses.length (f.clauses.map lineOf) := by
  unfold CNF.dump fileText
  rw [List.append_assoc _ _ (" 0\n".toList), dump_body f.clauses h0 hc]
  simp [List.flatMap_map]

theorem clausesOf_lineOf (cs : List (List Int)) : clausesOf (cs.map lineOf) = cs := by
  induction cs with
  | nil => rfl
  | cons c cs ih => 
    have h1 : (c.map fun i => (i, [' '])).map (·.1) = c := by simp [Function.comp_def]
    have h2 : clausesOf (lineOf c :: cs.map lineOf) = (c.map fun i => (i, [' '])).map (·.1) :: clausesOf (cs.map lineOf) := rfl
    rw [List.map_cons, h2, h1, ih]

/-! ### load -/

theorem splitSpace_word (w : List Char) (h : ' ' ∉ w) (rest : List Char) :
    splitSpace (w ++ ' ' :: rest) = w :: splitSpace rest := by
  induction w with
  | nil => simp [splitSpace]
  | cons c cs ih =>
    simp at h
    simp only [List.cons_append, splitSpace]
    rw [if_neg (fun e => h.1 e.symm), ih h.2]

theorem loadLits_line (c : List Int) (h : good c) : loadLits (splitSpace (lineOf c).text) = c := by
  rw [lineOf_text]
  induction c with
  | nil => decide
  | cons i c ih =>
    have hi := h i (by simp)
    simp only [List.flatMap_cons, List.append_assoc, List.cons_append, List.nil_append]
    rw [splitSpace_word (showInt i) (fun hc => numChar_ne_space (showInt_numChar _ _ hc) rfl)]
    simp only [loadLits, parseI32_showInt hi.2, if_neg hi.1]
    rw [ih (fun j hj => h j (by simp [hj]))]

theorem lineOf_ne_nl (c : List Int) : (lineOf c).text ≠ ['\n'] := by
  rw [lineOf_text]
  intro h
  have h2 : '0' ∈ (c.flatMap fun i => showInt i ++ [' ']) ++ ['0', '\n'] := by simp
  rw [h] at h2; simp at h2

theorem loadLine_clause (s : LoadState) (hs : s.hdr.isSome) (c : List Int) (h : good c) (f : CNF)
    (e : s.cnf.addClause c = .ok f) :
    loadLine s (lineOf c).text = .ok { s with cnf := f, numClause := s.numClause + 1 } := by
  unfold loadLine
  rw [if_neg (lineOf_ne_nl c)]
  have : startsWith ['c'] (lineOf c).text = false := not_c_clause (lineOf_wf h)
  rw [this]
  cases hh : s.hdr with
  | none => rw [hh] at hs; simp at hs
  | some x => simp [loadLits_line c h, e]

/-- adding a fresh clause succeeds -/
theorem addClause_fresh (f : CNF) (c : List Int) (hc : c ≠ [])
    (h : f.noCheck = true ∨ (f.clauses.length ≤ 100000 ∧ sortInts c ∉ f.clsMap)) :
    ∃ f', f.addClause c = .ok f' ∧ f'.clauses = f.clauses ++ [c] ∧ f'.noCheck = f.noCheck ∧
      (f.noCheck = false → f'.clsMap = sortInts c :: f.clsMap) ∧ f'.numVars = max f.numVars (maxVar c) := by
  refine ⟨{ f with numVars := max f.numVars (maxVar c)
                   clsMap := if f.noCheck then f.clsMap else sortInts c :: f.clsMap
                   clauses := f.clauses ++ [c] }, ?_, rfl, rfl, ?_, rfl⟩
  · unfold CNF.addClause
    rcases h with h | ⟨h1, h2⟩
    · simp [h, hc]
    · have hn : ¬ 100000 < f.clauses.length := by omega
      cases hnc : f.noCheck <;> simp [hnc, hc, hn, h2]
  · intro h; simp [h]

theorem load_loop (cs : List (List Int)) : ∀ (s : LoadState), s.hdr.isSome → s.dup = false →
    (∀ c ∈ cs, good c ∧ c ≠ []) → s.numClause = s.cnf.clauses.length →
    (s.cnf.noCheck = true ∨ (s.cnf.clauses.length + cs.length ≤ 100000 ∧ (cs.map sortInts).Nodup ∧
      ∀ c ∈ cs, sortInts c ∉ s.cnf.clsMap)) →
    ∃ s', (cs.map fun c => (lineOf c).text).foldlM loadLine s = .ok s' ∧ s'.hdr = s.hdr ∧ s'.dup = false ∧
      s'.cnf.clauses = s.cnf.clauses ++ cs ∧
      s'.cnf.numVars = cs.foldl (fun m c => max m (maxVar c)) s.cnf.numVars := by
  induction cs with
  | nil => intro s _ hd _ _ _; exact ⟨s, rfl, rfl, hd, by simp, rfl⟩
  | cons c cs ih =>
    intro s hs hd hg hn hu
    have hc := hg c (by simp)
    obtain ⟨f, e, e1, e2, e3, e4⟩ := addClause_fresh s.cnf c hc.2 (by
      rcases hu with hu | hu
      · exact .inl hu
      · exact .inr ⟨by have := hu.1; simp at this; omega, hu.2.2 c (by simp)⟩)
    have el := loadLine_clause s hs c hc.1 f e
    obtain ⟨s', es, h1, h2, h3, h4⟩ := ih { s with cnf := f, numClause := s.numClause + 1 } hs hd
      (fun x hx => hg x (by simp [hx])) (by simp [e1, hn]) (by
        simp only
        rw [e2]
        rcases hu with hu | hu
        · exact .inl hu
        · cases hb : s.cnf.noCheck
          · right
            have hl := hu.1
            have hnd := hu.2.1
            simp only [List.map_cons, List.nodup_cons] at hnd
            refine ⟨by rw [e1]; simp at hl ⊢; omega, hnd.2, ?_⟩
            intro x hx; rw [e3 hb]; simp only [List.mem_cons, not_or]
            refine ⟨?_, hu.2.2 x (by simp [hx])⟩
            intro he; apply hnd.1; rw [← he]; exact List.mem_map_of_mem hx
          · exact .inl rfl)
    refine ⟨s', ?_, h1, h2, ?_, ?_⟩
    · rw [List.map_cons, List.foldlM_cons, el]; exact es
    · rw [h3]; simp [e1]
    · rw [h4]; simp [e4]

end Splr.Dimacs
