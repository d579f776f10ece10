import Verif.Spec.Text
namespace Splr.Text

theorem digit_toNat {d : Nat} (h : d < 10) : (digit d).toNat = 48 + d := by
  have : ∀ d, d < 10 → (digit d).toNat = 48 + d := by decide
  exact this d h

theorem digitVal_digit {d : Nat} (h : d < 10) : digitVal (digit d) = some d := by
  unfold digitVal; rw [digit_toNat h]; rw [if_pos (by omega)]; congr 1; omega

theorem readDigits_append (a : Nat) (xs ys : List Char) :
    readDigits a (xs ++ ys) = (readDigits a xs).bind (fun b => readDigits b ys) := by
  induction xs generalizing a with
  | nil => rfl
  | cons c cs ih =>
    simp only [List.cons_append, readDigits]
    cases digitVal c with
    | none => rfl
    | some d => exact ih _

theorem showNat_ne_nil (n : Nat) : showNat n ≠ [] := by
  unfold showNat; split <;> simp

theorem readDigits_showNat (n : Nat) : readDigits 0 (showNat n) = some n := by
  induction n using Nat.strongRecOn with
  | _ n ih =>
    unfold showNat
    split
    · rename_i h; simp [readDigits, digitVal_digit h]
    · rw [readDigits_append, ih (n/10) (by omega)]
      simp [readDigits, digitVal_digit (Nat.mod_lt n (by omega : 10 > 0))]
      omega

theorem readNat_showNat (n : Nat) : readNat (showNat n) = some n := by
  have h := showNat_ne_nil n
  have h2 := readDigits_showNat n
  cases e : showNat n with
  | nil => exact absurd e h
  | cons c cs => rw [e] at h2; simpa [readNat] using h2

/-- a character of a numeral -/
def NumChar (c : Char) : Prop := (48 ≤ c.toNat ∧ c.toNat ≤ 57) ∨ c = '-'

theorem showNat_digits (n : Nat) : ∀ c ∈ showNat n, 48 ≤ c.toNat ∧ c.toNat ≤ 57 := by
  induction n using Nat.strongRecOn with
  | _ n ih =>
    intro c hc
    unfold showNat at hc
    split at hc
    · rename_i h
      simp at hc; subst hc; rw [digit_toNat h]; omega
    · simp at hc
      rcases hc with hc | rfl
      · exact ih (n/10) (by omega) c hc
      · rw [digit_toNat (by omega)]; omega

theorem showInt_numChar (i : Int) : ∀ c ∈ showInt i, NumChar c := by
  intro c hc
  cases i with
  | ofNat n => exact .inl (showNat_digits n c hc)
  | negSucc n =>
    simp [showInt] at hc
    rcases hc with rfl | hc
    · exact .inr rfl
    · exact .inl (showNat_digits _ c hc)

theorem showInt_ne_nil (i : Int) : showInt i ≠ [] := by
  cases i with
  | ofNat n => exact showNat_ne_nil n
  | negSucc n => simp [showInt]

theorem numChar_not_ws {c : Char} (h : NumChar c) : isWs c = false := by
  rcases h with h | rfl
  · unfold isWs
    have ne : ∀ d : Char, d.toNat < 48 → c ≠ d := by rintro d hd rfl; omega
    simp [ne ' ' (by decide), ne '\t' (by decide), ne '\n' (by decide), ne '\r' (by decide),
      ne '\x0b' (by decide), ne '\x0c' (by decide)]
  · decide

theorem numChar_ne_nl {c : Char} (h : NumChar c) : c ≠ '\n' := by
  rintro rfl; have := numChar_not_ws h; simp [isWs] at this

theorem numChar_ne_space {c : Char} (h : NumChar c) : c ≠ ' ' := by
  rintro rfl; have := numChar_not_ws h; simp [isWs] at this

theorem parseI32_digits (cs : List Char) (h : ∀ c ∈ cs, 48 ≤ c.toNat ∧ c.toNat ≤ 57) :
    parseI32 cs = match readNat cs with
      | some n => if n ≤ 2147483647 then some (n : Int) else none
      | none => none := by
  cases cs with
  | nil => rfl
  | cons c cs =>
    have hc := h c (by simp)
    unfold parseI32
    split
    · rename_i e; simp at e; obtain ⟨rfl, _⟩ := e; exact absurd hc (by decide)
    · rename_i e; simp at e; obtain ⟨rfl, _⟩ := e; exact absurd hc (by decide)
    · rfl

theorem parseI32_showInt {i : Int} (h : IsI32 i) : parseI32 (showInt i) = some i := by
  obtain ⟨h1, h2⟩ := h
  cases i with
  | ofNat n =>
    simp only [showInt]
    rw [parseI32_digits _ (showNat_digits n), readNat_showNat]
    have : n ≤ 2147483647 := by have : (n : Int) ≤ 2147483647 := h2; omega
    simp [this]
  | negSucc n =>
    simp only [showInt, parseI32, readNat_showNat]
    rw [if_pos (by omega)]
    congr 1

theorem parseUsize_showNat {n : Nat} (h : n < 18446744073709551616) : parseUsize (showNat n) = some n := by
  have hd := showNat_digits n
  have h0 := showNat_ne_nil n
  have hr := readNat_showNat n
  cases e : showNat n with
  | nil => exact absurd e h0
  | cons c cs =>
    rw [e] at hd hr
    have hc := hd c (by simp)
    unfold parseUsize
    split
    · rename_i e; simp at e; obtain ⟨rfl, _⟩ := e; exact absurd hc (by decide)
    · simp [hr, h]

/-! ### lines and words -/

theorem readLines_append (l : List Char) (h : '\n' ∉ l) (rest : List Char) :
    readLines (l ++ '\n' :: rest) = (l ++ ['\n']) :: readLines rest := by
  induction l with
  | nil => simp [readLines]
  | cons c cs ih =>
    simp at h
    simp only [List.cons_append, readLines]
    rw [if_neg (fun e => h.1 e.symm), ih h.2]

theorem words_ws (s rest : List Char) (h : ∀ c ∈ s, isWs c = true) : words (s ++ rest) = words rest := by
  induction s with
  | nil => rfl
  | cons c cs ih =>
    have hc := h c (by simp)
    rw [List.cons_append, words.eq_def]
    simp only [hc, if_true]
    exact ih (fun d hd => h d (by simp [hd]))

theorem words_word (w : List Char) (hw : w ≠ []) (h : ∀ c ∈ w, isWs c = false) (s rest : List Char) (hs : s ≠ [])
    (hs' : ∀ c ∈ s, isWs c = true) : words (w ++ s ++ rest) = w :: words rest := by
  have hs2 : words (s ++ rest) = words rest := words_ws s rest hs'
  induction w with
  | nil => exact absurd rfl hw
  | cons c cs ih =>
    have hc := h c (by simp)
    cases cs with
    | nil =>
      cases s with
      | nil => exact absurd rfl hs
      | cons d ds =>
        have hd := hs' d (by simp)
        simp only [List.cons_append, List.nil_append]
        rw [words.eq_def]
        simp only [hc, hd, if_true]
        simp only [List.cons_append] at hs2
        rw [hs2]; simp
    | cons d ds =>
      have hd := h d (by simp)
      have ih := ih (by simp) (fun e he => h e (by simp [he]))
      simp only [List.cons_append] at ih ⊢
      rw [words.eq_def]
      simp only [hc, hd]
      rw [ih]; simp

theorem words_blank (s : List Char) (h : ∀ c ∈ s, isWs c = true) : words s = [] := by
  have := words_ws s [] h; simpa [words] using this

end Splr.Text
