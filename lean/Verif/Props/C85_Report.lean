import Verif.Model.Report
import Verif.Props.C83_Files
/-!
# C85: the comments do not disturb the answer file
-/
namespace Splr.Report
open Dimacs Cert Stage Text Path

/-- The texts of the numbers and keys have no line feeds. -/
structure Plain (s : Stats) : Prop where
  version : '\n' ∉ s.version
  vars : '\n' ∉ s.vars
  clauses : '\n' ∉ s.clauses
  num : ∀ i, '\n' ∉ s.num i
  keys : ∀ k ∈ s.keys, '\n' ∉ k.1 ∧ '\n' ∉ k.2.1 ∧ '\n' ∉ k.2.2
  heat : ∀ k ∈ s.heat, '\n' ∉ k.1 ∧ '\n' ∉ k.2

/-- A comment line. -/
def Comment (t : List Char) : Prop := '\n' ∉ t ∧ ∃ r, t = 'c' :: r

theorem comment_append {a b : List Char} (ha : Comment a) (hb : '\n' ∉ b) : Comment (a ++ b) := by
  obtain ⟨h1, r, rfl⟩ := ha
  refine ⟨?_, r ++ b, rfl⟩
  rw [List.mem_append]; exact fun h => h.elim h1 hb

theorem comment_lit {a r : List Char} (h : a = 'c' :: r) (h2 : '\n' ∉ a) : Comment a := ⟨h2, r, h⟩

theorem padRight_plain {n : Nat} {s : List Char} (h : '\n' ∉ s) : '\n' ∉ padRight n s := by
  unfold padRight
  rw [List.mem_append]
  rintro (h' | h')
  · exact h h'
  · have := (List.mem_replicate.1 h').2
    revert this; decide

theorem digits_plain (n : Nat) : '\n' ∉ Nat.toDigits 10 n := by
  intro h
  have := Nat.isDigit_of_mem_toDigits (by decide) (by decide) h
  revert this; decide

theorem mem_part {c : Char} : ∀ {p w : List Char}, w ∈ parts p → c ∈ w → c ∈ p
  | [], w, h, hc => by simp [parts] at h; subst h; exact hc
  | d :: cs, w, h, hc => by
    by_cases hd : d = '/'
    · simp only [parts, hd, if_true, List.mem_cons] at h
      rcases h with rfl | h
      · simp at hc
      · exact List.mem_cons_of_mem _ (mem_part h hc)
    · simp only [parts, hd, if_false] at h
      cases e : parts cs with
      | nil => exact absurd e (Files.parts_ne cs)
      | cons v vs =>
        rw [e] at h
        simp only [List.mem_cons] at h
        rcases h with rfl | h
        · rcases List.mem_cons.1 hc with rfl | hc
          · exact List.mem_cons_self
          · exact List.mem_cons_of_mem _ (mem_part (p := cs) (w := v) (by simp [e]) hc)
        · exact List.mem_cons_of_mem _ (mem_part (p := cs) (by simp [e, h]) hc)

theorem fileName_plain {p : List Char} (h : '\n' ∉ p) : '\n' ∉ (Files.fileName p).getD "file with strange chars".toList := by
  cases e : Files.fileName p with
  | none => simp only [Option.getD_none]; decide
  | some n =>
    simp only [Option.getD_some]
    intro hn
    apply h
    unfold Files.fileName at e
    have hl : (Files.components p).getLast? = some (.normal n) := by
      revert e
      cases (Files.components p).getLast? with
      | none => simp
      | some c => cases c <;> simp
    have hm : Files.Comp.normal n ∈ Files.components p := List.mem_of_getLast? hl
    unfold Files.components at hm
    rcases List.mem_append.1 hm with hm | hm
    · exfalso
      revert hm
      split
      · simp
      · split <;> simp
    · obtain ⟨w, hw, e⟩ := List.mem_filterMap.1 hm
      split at e
      · simp at e
      · split at e
        · simp at e
        · simp only [Option.some.injEq, Files.Comp.normal.injEq] at e
          subst e
          exact mem_part hw hn

theorem heat_comments : ∀ (i : Nat) {rs : List (List Char × List Char)}, (∀ k ∈ rs, '\n' ∉ k.1 ∧ '\n' ∉ k.2) → ∀ t ∈ heatLines i rs, Comment t
  | _, [], _ => by simp [heatLines]
  | i, [(a, b)], h => by
    have := h _ List.mem_cons_self
    simp only [heatLines, List.mem_singleton, forall_eq]
    refine comment_append (comment_append (comment_append (comment_append (comment_append (comment_lit rfl (by decide)) (digits_plain _)) (by decide)) this.1) (by decide)) this.2
  | i, (a, b) :: y :: rs, h => by
    have h1 := h _ List.mem_cons_self
    intro t ht
    simp only [heatLines] at ht
    rcases List.mem_cons.1 ht with rfl | ht
    · exact comment_append (comment_append (comment_append (comment_append (comment_append (comment_lit rfl (by decide)) (digits_plain _)) (by decide)) h1.1) (by decide)) h1.2
    · exact heat_comments (i + 1) (fun k hk => h k (List.mem_cons_of_mem _ hk)) t ht

theorem report_comments {s : Stats} (h : Plain s) {path : List Char} (hp : '\n' ∉ path) : ∀ t ∈ report s path, Comment t := by
  intro t ht
  rcases List.mem_cons.1 ht with rfl | ht
  · exact comment_append (comment_append (comment_append (comment_append (comment_append (comment_lit rfl (by decide)) (padRight_plain (fileName_plain hp))) (by decide)) h.vars)
      (by decide)) h.clauses
  rcases List.mem_append.1 ht with ht | ht
  · simp only [statLines, List.mem_cons, List.not_mem_nil, or_false] at ht
    have hn := h.num
    rcases ht with rfl | rfl | rfl | rfl | rfl | rfl | rfl | rfl <;>
      repeat' first
        | exact hn _
        | exact comment_lit rfl (by decide)
        | apply comment_append
        | decide
  rcases List.mem_append.1 ht with ht | ht
  · obtain ⟨k, hk, rfl⟩ := List.mem_map.1 ht
    have := h.keys k hk
    exact comment_append (comment_append (comment_append (comment_append (comment_lit rfl (by decide)) this.1) (by decide)) (padRight_plain this.2.1)) this.2.2
  rcases List.mem_append.1 ht with ht | ht
  · exact heat_comments 0 h.heat t ht
  · rw [List.mem_singleton] at ht
    subst ht
    exact comment_lit rfl (by decide)

theorem head_comments {s : Stats} (h : Plain s) {path first : List Char} (hp : '\n' ∉ path) (hf : Comment first) :
    ∀ t ∈ (first ++ s.version ++ " for ".toList ++ path) :: "c ".toList :: report s path, Comment t := by
  intro t ht
  rcases List.mem_cons.1 ht with rfl | ht
  · exact comment_append (comment_append (comment_append hf h.version) (by decide)) hp
  rcases List.mem_cons.1 ht with rfl | ht
  · exact comment_lit rfl (by decide)
  · exact report_comments h hp t ht

variable {K : Type} [LinearOrder K]

/-- **C85.** The answer file with all its comment lines, for an input whose path has no line feed: reading it back gives exactly the model that was written, and `dmcr` accepts it.
Missing for the full property: paths with line feeds (`C85_violated`). -/
theorem C85_answer_with_comments_partial {s : Stats} (hs : Plain s) {path : List Char} (hpath : '\n' ∉ path) {pre : List (List Char)} {nv nc : Nat} {body : List Line}
    (h : GoodFile pre nv nc body) (h1 : 1 ≤ nv) (hn : nv < 65535) {c : CfgW} (hen : c.cfg.enable = true) (p : PreW) (u : Nat) (ts : List (TickW K)) (low : Nat → Bool)
    (act : Nat → Nat → Nat → Bool) {a : List Char} {pf : Option (List Char)}
    (e : splrA c p u ts low act (commentsSat s path) (fileText pre nv nc body) = .exits 10 (some a) pf) :
    ∃ vals, Canonical vals nv ∧ Form.sat (valsAsg vals) (formOf body) ∧ readAnswer (readLines a) = .some_ vals ∧ dmcr (fileText pre nv nc body) a = .valid := by
  have hc : ∀ t ∈ commentsSat s path, Comment t := head_comments hs hpath (comment_lit rfl (by decide))
  rcases C81_program (K := K) h hn hen p u ts low act (commentsSat s path) with hr | ⟨hr, -⟩
  · rw [e] at hr
    cases hr with
    | sat vals hcan hsat hd =>
      refine ⟨vals, hcan, hsat, C35_answer_roundtrip _ _ hc ?_, hd h1 hc⟩
      intro i hi
      obtain ⟨k, hk, rfl⟩ := List.mem_iff_getElem.1 hi
      have h' := hcan.2 k hk
      have hlen := hcan.1
      unfold IsI32
      omega
  · rw [e] at hr; cases hr

theorem readAnswer_comment {l : List Char} {ls : List (List Char)} (h : startsWith ['c'] l = true) : readAnswer (l :: ls) = readAnswer ls := by
  unfold readAnswer
  rw [if_pos h]
  cases ls <;> rfl

/-- **C85.** The same for the other two kinds of answer files: `dmcr` does not take them for an answer. -/
theorem C85_no_answer_partial {s : Stats} (hs : Plain s) {path : List Char} (hpath : '\n' ∉ path) {e : List Char} (he : '\n' ∉ e) :
    readAnswer (readLines (statusText (commentsUnsat s path) "s UNSATISFIABLE".toList)) = .none_ ∧
    readAnswer (readLines (statusText (commentsErr s path e) "s UNKNOWN".toList)) = .none_ := by
  have key : ∀ (st : List Char) (cs : List (List Char)), (∀ t ∈ cs, Comment t) → st = "s UNSATISFIABLE".toList ∨ st = "s UNKNOWN".toList →
      readAnswer (readLines (statusText cs st)) = .none_ := by
    intro st cs hcs hst
    unfold statusText
    induction cs with
    | nil => rcases hst with rfl | rfl <;> decide +kernel
    | cons t cs ih =>
      obtain ⟨hnl, r, rfl⟩ := hcs _ List.mem_cons_self
      have hl := readLines_append ('c' :: r) hnl (cs.flatMap (· ++ ['\n']) ++ st ++ "\n0\n".toList)
      have e : (('c' :: r) :: cs).flatMap (· ++ ['\n']) ++ st ++ "\n0\n".toList = ('c' :: r) ++ '\n' :: (cs.flatMap (· ++ ['\n']) ++ st ++ "\n0\n".toList) := by
        simp
      rw [e, hl]
      have hst' : startsWith ['c'] ('c' :: r ++ ['\n']) = true := by simp [startsWith]
      rw [readAnswer_comment hst']
      exact ih fun t ht => hcs t (List.mem_cons_of_mem _ ht)
  refine ⟨key _ _ (head_comments hs hpath (comment_lit rfl (by decide))) (.inl rfl), key _ _ ?_ (.inr rfl)⟩
  intro t ht
  unfold commentsErr at ht
  rcases List.mem_append.1 ht with ht | ht
  · exact head_comments hs hpath (comment_lit rfl (by decide)) t ht
  · rw [List.mem_singleton] at ht
    subst ht
    exact comment_append (comment_lit rfl (by decide)) he

/-- Numbers as they may be printed. -/
def exStats : Stats where
  version := "0.18.0".toList
  vars := "       12".toList
  clauses := "       51".toList
  num := fun i => "  ".toList ++ Nat.toDigits 10 i
  keys := [("config".toList, "ClauseRewardDecayRate".toList, "  0.950".toList), ("state".toList, "RefinementScale".toList, "  1.000".toList)]
  heat := [("0.500".toList, "0.250, 0.250".toList), ("0.500".toList, "0.500, 0.000".toList)]

theorem exPlain : Plain exStats where
  version := by decide
  vars := by decide
  clauses := by decide
  num := fun i => by
    change '\n' ∉ "  ".toList ++ Nat.toDigits 10 i
    rw [List.mem_append]
    exact fun h => h.elim (by decide) (digits_plain i)
  keys := by decide
  heat := by decide

/-- The hypotheses are met by a run that finds a model. -/
example : Plain exStats ∧ '\n' ∉ "x/a.cnf".toList ∧ GoodFile [] 12 51 exBodyW ∧ exCfgW.cfg.enable = true ∧
    (match splrA exCfgW exPreW 32 (List.replicate 30 exTickW) noLow exAct (commentsSat exStats "x/a.cnf".toList) (fileText [] 12 51 exBodyW) with
      | .exits 10 (some _) _ => true
      | _ => false) = true := ⟨exPlain, by decide, exFileW, rfl, by decide +kernel⟩

/-- **C85 is violated.** A line feed in the path of the input: `dmcr` panics on the answer file of a satisfiable problem, whatever the model is; or it is made to read
another answer, which stands in the path. -/
theorem C85_violated (s : Stats) (hs : Plain s) (vals : List Int) :
    readAnswer (readLines (answerText (commentsSat s "a\nb.cnf".toList) vals)) = .panic ∧
    readAnswer (readLines (answerText (commentsSat s "a\nv -1 0\n.cnf".toList) vals)) = .some_ [-1] := by
  have key : ∀ q : List Char, ∃ L T : List Char, Comment L ∧ answerText (commentsSat s ("a\n".toList ++ q)) vals = L ++ '\n' :: (q ++ '\n' :: T) := by
    intro q
    refine ⟨"c This file was generated by splr-".toList ++ s.version ++ " for a".toList,
      ("c ".toList :: report s ("a\n".toList ++ q)).flatMap (· ++ ['\n']) ++ ("s SATISFIABLE\nv ".toList ++ ((vals.flatMap fun x => showInt x ++ [' ']) ++ "0\n".toList)),
      comment_append (comment_append (comment_lit rfl (by decide)) hs.version) (by decide), ?_⟩
    unfold answerText commentsSat
    rw [List.flatMap_cons]
    generalize ("c ".toList :: report s ("a\n".toList ++ q)).flatMap (· ++ ['\n']) = X
    generalize "s SATISFIABLE\nv ".toList = Y
    generalize (vals.flatMap fun x => showInt x ++ [' ']) = Z
    generalize "0\n".toList = W
    have e : " for ".toList ++ ("a\n".toList ++ q) = " for a".toList ++ '\n' :: q := rfl
    rw [List.append_assoc ("c This file was generated by splr-".toList ++ s.version), e]
    generalize "c This file was generated by splr-".toList = A
    generalize " for a".toList = B
    simp

  have first : ∀ L R : List Char, Comment L → readAnswer (readLines (L ++ '\n' :: R)) = readAnswer (readLines R) := by
    rintro L R ⟨hnl, r, rfl⟩
    rw [readLines_append _ hnl]
    exact readAnswer_comment (by simp [startsWith])
  constructor
  · obtain ⟨L, T, hL, e⟩ := key "b.cnf".toList
    change readAnswer (readLines (answerText (commentsSat s ("a\n".toList ++ "b.cnf".toList)) vals)) = _
    rw [e, first _ _ hL, readLines_append _ (by decide)]
    rfl
  · obtain ⟨L, T, hL, e⟩ := key "v -1 0\n.cnf".toList
    change readAnswer (readLines (answerText (commentsSat s ("a\n".toList ++ "v -1 0\n.cnf".toList)) vals)) = _
    have e2 : "v -1 0\n.cnf".toList ++ '\n' :: T = "v -1 0".toList ++ '\n' :: (".cnf\n".toList ++ T) := rfl
    rw [e, first _ _ hL, e2, readLines_append _ (by decide)]
    have e3 : vLits (words "-1 0\n".toList) = some [-1] := by decide +kernel
    have e4 : "v -1 0".toList ++ ['\n'] = 'v' :: ' ' :: "-1 0\n".toList := rfl
    rw [e4]
    unfold readAnswer
    rw [if_neg (by decide +kernel), if_neg (by decide +kernel)]
    simp only [e3]

end Splr.Report
