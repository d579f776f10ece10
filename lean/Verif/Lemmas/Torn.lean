import Verif.Lemmas.Cert
import Mathlib.Tactic.Common
import Mathlib.Order.Defs.LinearOrder
/-! # A certificate file that is cut at any character -/
namespace Splr.Cert
open Text

theorem words_single {w : List Char} (hw : w ≠ []) (h : ∀ c ∈ w, isWs c = false) : words w = [w] := by
  induction w with
  | nil => exact absurd rfl hw
  | cons c cs ih =>
    have hc := h c (by simp)
    cases cs with
    | nil => simp [words, hc]
    | cons d cs =>
      have hd := h d (by simp)
      have := ih (by simp) fun x hx => h x (by simp [hx])
      rw [words, if_neg (by simp [hc])]
      simp only [hd, Bool.false_eq_true, if_false]
      rw [this]

/-- A decimal numeral of a positive number does not begin with 0. -/
theorem showNat_head {n : Nat} (hn : 0 < n) : ∀ c cs, showNat n = c :: cs → ∃ d, digitVal c = some d ∧ 0 < d := by
  induction n using Nat.strongRecOn with
  | ind n ih =>
    intro c cs e
    rw [showNat] at e
    split at e
    · rename_i h
      simp at e
      exact ⟨n, by rw [← e.1]; exact digitVal_digit h, hn⟩
    · rename_i h
      cases hs : showNat (n / 10) with
      | nil => exact absurd hs (showNat_ne_nil _)
      | cons x xs =>
        rw [hs] at e
        simp at e
        obtain ⟨d, h1, h2⟩ := ih (n / 10) (by omega) (by omega) x xs hs
        exact ⟨d, by rw [← e.1]; exact h1, h2⟩

theorem readDigits_ge : ∀ {cs : List Char} {a n : Nat}, readDigits a cs = some n → a ≤ n
  | [], a, n, h => by simp [readDigits] at h; omega
  | c :: cs, a, n, h => by
    unfold readDigits at h
    cases hd : digitVal c with
    | none => simp [hd] at h
    | some d =>
      rw [hd] at h
      have := readDigits_ge h
      omega

/-- What is left of a positive numeral is positive, if anything is left. -/
theorem readNat_prefix {n k : Nat} (hn : 0 < n) {w : List Char} (h : w <+: showNat n) (e : readNat w = some k) : 0 < k := by
  cases w with
  | nil => simp [readNat] at e
  | cons c w =>
    obtain ⟨t, ht⟩ := h
    obtain ⟨d, h1, h2⟩ := showNat_head hn c (w ++ t) (by rw [← ht]; rfl)
    have e : readDigits 0 (c :: w) = some k := e
    unfold readDigits at e
    rw [h1] at e
    have := readDigits_ge e
    omega

theorem digit_ne {c : Char} (h : 48 ≤ c.toNat ∧ c.toNat ≤ 57) : c ≠ '-' ∧ c ≠ '+' := by
  constructor
  · rintro rfl; exact absurd h.1 (by decide)
  · rintro rfl; exact absurd h.1 (by decide)

theorem parseI32_prefix {i : Int} (hi : i ≠ 0) {w : List Char} (h : w <+: showInt i) : parseI32 w ≠ some 0 := by
  intro e
  cases i with
  | ofNat n =>
    have hn : 0 < n := by rcases Nat.eq_zero_or_pos n with rfl | h; exacts [absurd rfl hi, h]
    have hd : ∀ c ∈ w, 48 ≤ c.toNat ∧ c.toNat ≤ 57 := fun c hc => showNat_digits n c (h.subset hc)
    rw [parseI32_digits w hd] at e
    cases hr : readNat w with
    | none => simp [hr] at e
    | some k =>
      have := readNat_prefix hn h hr
      simp only [hr] at e
      split at e
      · simp at e; omega
      · simp at e
  | negSucc n =>
    cases w with
    | nil => simp [parseI32, readNat] at e
    | cons c w =>
      obtain ⟨t, ht⟩ := h
      simp only [showInt, List.cons_append, List.cons.injEq] at ht
      obtain ⟨rfl, ht⟩ := ht
      unfold parseI32 at e
      simp only [] at e
      cases hr : readNat w with
      | none => simp [hr] at e
      | some k =>
        have := readNat_prefix (Nat.succ_pos n) ⟨t, ht⟩ hr
        simp only [hr] at e
        split at e
        · simp at e; omega
        · simp at e

theorem prefix_append_cases {α : Type} {p a b : List α} (h : p <+: a ++ b) : p <+: a ∨ ∃ q, p = a ++ q ∧ q <+: b := by
  rcases Nat.le_total p.length a.length with hl | hl
  · exact .inl (List.prefix_of_prefix_length_le h (List.prefix_append a b) hl)
  · obtain ⟨q, rfl⟩ := List.prefix_of_prefix_length_le (List.prefix_append a b) h hl
    exact .inr ⟨q, rfl, (List.prefix_append_right_inj a).1 h⟩

/-- The literals of a line that is cut: either nothing is missing, or the line is visibly incomplete. -/
theorem readLits_prefix : ∀ {c : List Int}, (∀ i ∈ c, i ≠ 0 ∧ IsI32 i) → ∀ {p : List Char}, p <+: litsText c →
    (readLits (words p) = none ∨ p = litsText c) ∧ ∀ ws, words p ≠ ['d'] :: ws
  | [], _, p, hp => by
    have : litsText [] = ['0'] := rfl
    rw [this] at hp ⊢
    cases p with
    | nil => exact ⟨.inl rfl, by simp [words]⟩
    | cons x p =>
      obtain ⟨t, ht⟩ := hp
      simp at ht
      obtain ⟨rfl, rfl, -⟩ := ht
      exact ⟨.inr rfl, fun ws h => by simp [words, isWs] at h⟩
  | i :: c, hc, p, hp => by
    have e : litsText (i :: c) = showInt i ++ ' ' :: litsText c := by simp [litsText]
    have hi := hc i (by simp)
    have hnw : ∀ x ∈ showInt i, isWs x = false := fun x hx => numChar_not_ws (showInt_numChar i x hx)
    have hnd : 'd' ∉ showInt i := fun h => by
      rcases showInt_numChar i 'd' h with h | h
      · exact absurd h (by decide)
      · exact absurd h (by decide)
    have torn : ∀ q : List Char, q <+: showInt i → readLits (words q) = none ∧ ∀ ws, words q ≠ ['d'] :: ws := by
      intro q hq
      by_cases hq0 : q = []
      · subst hq0; exact ⟨rfl, by simp [words]⟩
      · rw [words_single hq0 fun x hx => hnw x (hq.subset hx)]
        refine ⟨?_, ?_⟩
        · have := parseI32_prefix hi.1 hq
          unfold readLits
          cases hr : parseI32 q with
          | none => rfl
          | some j =>
            rw [hr] at this
            have hj : j ≠ 0 := by rintro rfl; exact this rfl
            simp only [if_neg hj, readLits]
        · intro ws h
          simp at h
          exact hnd (hq.subset (by rw [h.1]; simp))
    rw [e] at hp ⊢
    rcases prefix_append_cases hp with hp | ⟨q, rfl, hq⟩
    · obtain ⟨a, b⟩ := torn p hp
      exact ⟨.inl a, b⟩
    · cases q with
      | nil =>
        rw [List.append_nil]
        obtain ⟨a, b⟩ := torn _ (List.prefix_refl _)
        exact ⟨.inl a, b⟩
      | cons x q =>
        obtain ⟨t, ht⟩ := hq
        simp only [List.cons_append, List.cons.injEq] at ht
        obtain ⟨rfl, ht⟩ := ht
        have hw := words_word (showInt i) (showInt_ne_nil i) hnw [' '] q (by simp) (by decide)
        simp only [List.append_assoc, List.cons_append, List.nil_append] at hw
        rw [hw]
        refine ⟨?_, ?_⟩
        · rcases (readLits_prefix (c := c) (fun j hj => hc j (by simp [hj])) (p := q) ⟨t, ht⟩).1 with h | rfl
          · left; simp only [readLits, parseI32_showInt hi.2, if_neg hi.1, h]
          · exact .inr rfl
        · intro ws h
          simp at h
          exact hnd (by rw [h.1]; simp)

/-- A line that is cut is either complete or visibly incomplete. -/
theorem readRec_prefix {r : Rec} (h : ok r) {p : List Char} (hp : p <+: recText r) : readRec p = none ∨ p = recText r := by
  cases r with
  | add c =>
    obtain ⟨a, b⟩ := readLits_prefix h hp
    rw [readRec_add _ b]
    rcases a with a | a
    · left; rw [a]; rfl
    · exact .inr a
  | del c =>
    have hs : recText (.del c) = ['d', ' '] ++ litsText c := rfl
    rw [hs] at hp ⊢
    rcases prefix_append_cases hp with hp | ⟨q, rfl, hq⟩
    · left
      have : p = [] ∨ p = ['d'] ∨ p = ['d', ' '] := by
        obtain ⟨t, ht⟩ := hp
        match p, ht with
        | [], _ => simp
        | [x], ht => simp at ht; simp [ht.1]
        | [x, y], ht => simp at ht; simp [ht.1, ht.2.1]
        | x :: y :: z :: p, ht => simp at ht
      rcases this with rfl | rfl | rfl <;> decide +kernel
    · have hw := words_word ['d'] (by simp) (by decide) [' '] q (by simp) (by decide)
      simp only [List.cons_append, List.nil_append] at hw
      rcases (readLits_prefix h.2 hq).1 with a | rfl
      · left
        unfold readRec
        simp only [List.cons_append, List.nil_append, hw, a]
        rfl
      · exact .inr rfl

theorem words_lits (c : List Int) : words (litsText c) = c.map showInt ++ [['0']] := by
  induction c with
  | nil => decide +kernel
  | cons i c ih =>
    have e : litsText (i :: c) = showInt i ++ ' ' :: litsText c := by simp [litsText]
    have hw := words_word (showInt i) (showInt_ne_nil i) (fun x hx => numChar_not_ws (showInt_numChar i x hx)) [' '] (litsText c) (by simp) (by decide)
    simp only [List.append_assoc, List.cons_append, List.nil_append] at hw
    rw [e, hw, ih]; rfl

/-- A line without its line end. -/
theorem readRec_bare (r : Rec) (h : ok r) : readRec (recText r) = some r := by
  cases r with
  | add c => rw [recText, readRec_add _ (by rw [words_lits]; exact words_ne_d c), words_lits, readLits_map c h]; rfl
  | del c =>
    have hw := words_word ['d'] (by simp) (by decide) [' '] (litsText c) (by simp) (by decide)
    simp only [List.cons_append, List.nil_append] at hw
    unfold readRec
    simp only [recText, hw, words_lits, readLits_map c h.2]
    rfl

theorem readLines_single {p : List Char} (hp : p ≠ []) (h : '\n' ∉ p) : readLines p = [p] := by
  induction p with
  | nil => exact absurd rfl hp
  | cons c cs ih =>
    have hc : c ≠ '\n' := fun e => h (by simp [e])
    rw [readLines, if_neg hc]
    cases cs with
    | nil => rfl
    | cons d cs => rw [ih (by simp) fun hm => h (by simp [hm])]

/-- A certificate file that is cut anywhere is read as a beginning of the records, or its last line is incomplete and does not read as
a record. -/
theorem readProof_prefix : ∀ {rs : List Rec}, (∀ r ∈ rs, ok r) → ∀ {p : List Char}, p <+: (rs.flatMap fun r => recText r ++ ['\n']) →
    (readProof p = none ∧ p.getLast? ≠ some '\n') ∨ ∃ rs', rs' <+: rs ∧ readProof p = some rs'
  | [], _, p, hp => by
    simp at hp; subst hp
    exact .inr ⟨[], List.prefix_refl _, by simp [readProof, readLines]⟩
  | r :: rs, h, p, hp => by
    simp only [List.flatMap_cons, List.append_assoc, List.cons_append, List.nil_append] at hp
    have hr := h r (by simp)
    have torn : ∀ q, q <+: recText r → (readProof q = none ∧ q.getLast? ≠ some '\n') ∨ ∃ rs', rs' <+: r :: rs ∧ readProof q = some rs' := by
      intro q hq
      by_cases hq0 : q = []
      · subst hq0; exact .inr ⟨[], List.nil_prefix, by simp [readProof, readLines]⟩
      · have hnl : '\n' ∉ q := fun hm => recText_no_nl r (hq.subset hm)
        have hl := readLines_single hq0 hnl
        unfold readProof
        rw [hl]
        rcases readRec_prefix hr hq with e | rfl
        · left; exact ⟨by simp [e], fun hm => hnl (List.mem_of_getLast? hm)⟩
        · exact .inr ⟨[r], by simp, by simp [readRec_bare r hr]⟩
    rcases prefix_append_cases hp with hp | ⟨q, rfl, hq⟩
    · exact torn p hp
    · cases q with
      | nil => rw [List.append_nil]; exact torn _ (List.prefix_refl _)
      | cons x q =>
        obtain ⟨t, ht⟩ := hq
        simp only [List.cons_append, List.cons.injEq] at ht
        obtain ⟨rfl, ht⟩ := ht
        have hl := readLines_append (recText r) (recText_no_nl r) q
        rcases readProof_prefix (rs := rs) (fun r' hr' => h r' (by simp [hr'])) (p := q) ⟨t, ht⟩ with ⟨e, hn⟩ | ⟨rs', h1, e⟩
        · left
          have hq0 : q ≠ [] := by rintro rfl; simp [readProof, readLines] at e
          refine ⟨?_, ?_⟩
          · unfold readProof at e ⊢
            rw [hl, List.mapM_cons, readRec_recText r hr, e]; rfl
          · rw [List.getLast?_append, List.getLast?_cons]
            cases hg : q.getLast? with
            | none => exact absurd (List.getLast?_eq_none_iff.1 hg) hq0
            | some y => rw [hg] at hn; simpa using hn
        · right
          refine ⟨r :: rs', by simpa using h1, ?_⟩
          unfold readProof at e ⊢
          rw [hl, List.mapM_cons, readRec_recText r hr, e]; rfl

end Splr.Cert
