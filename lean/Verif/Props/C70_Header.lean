import Verif.Model.Header
import Mathlib.Data.Nat.Digits.Defs
/-!
# C70: the header of the progress report

`splr` prints the name of the file and the numbers of variables and clauses when it starts to solve, unless it is told to be quiet.
-/
namespace Splr

theorem utf8Len_append (a b : List Char) : utf8Len (a ++ b) = utf8Len a + utf8Len b := by simp [utf8Len]

theorem utf8Len_replicate (n : Nat) (c : Char) : utf8Len (List.replicate n c) = n * c.utf8Size := by simp [utf8Len]

theorem utf8Len_ascii {cs : List Char} (h : ∀ c ∈ cs, c.utf8Size = 1) : utf8Len cs = cs.length := by
  induction cs with
  | nil => rfl
  | cons c cs ih =>
    have := ih fun x hx => h x (by simp [hx])
    simp only [utf8Len, List.map_cons, List.sum_cons, List.length_cons] at *
    rw [h c (by simp)]; omega

theorem digit_ascii (n : Nat) : ∀ c ∈ Nat.toDigits 10 n, c.utf8Size = 1 := by
  intro c hc
  have h := Nat.isDigit_of_mem_toDigits (by decide) (by decide) hc
  simp only [Char.isDigit, Bool.and_eq_true, decide_eq_true_eq] at h
  have h2 := h.2
  rw [UInt32.le_iff_toNat_le] at h2
  unfold Char.utf8Size
  rw [if_pos]
  rw [UInt32.le_iff_toNat_le]
  exact Nat.le_trans h2 (by decide)

theorem vc_len {nv nc : Nat} (h1 : nv < 2 ^ 64) (h2 : nc < 2 ^ 64) : utf8Len (vcOf nv nc) = (vcOf nv nc).length ∧ (vcOf nv nc).length ≤ 41 := by
  constructor
  · refine utf8Len_ascii fun c hc => ?_
    rcases List.mem_append.1 hc with h | h
    · exact digit_ascii nv c h
    · rcases List.mem_cons.1 h with rfl | h
      · decide
      · exact digit_ascii nc c h
  · have a := Nat.toDigits_length 10 nv 20 (by decide) (by omega)
    have b := Nat.toDigits_length 10 nc 20 (by decide) (by omega)
    unfold vcOf
    simp
    omega

theorem takeBytes_ascii {cs : List Char} (h : ∀ c ∈ cs, c.utf8Size = 1) {n : Nat} (hn : n ≤ cs.length) : takeBytes n cs = some (cs.take n) := by
  induction cs generalizing n with
  | nil => simp at hn; subst hn; rfl
  | cons c cs ih =>
    cases n with
    | zero => rfl
    | succ n =>
      have h1 := h c (by simp)
      simp only [takeBytes, h1, List.take_succ_cons]
      rw [if_pos (by omega), show n + 1 - 1 = n from rfl, ih (fun x hx => h x (by simp [hx])) (by simpa using hn)]
      rfl

/-- **C70** (partial): with a name of ASCII characters, the header is always printed: it takes exactly 59 columns and begins with
the name, or with its beginning if the name is too long. Missing, and false: other names (`C70_violated`). -/
theorem C70_header_partial {nv nc : Nat} (h1 : nv < 2 ^ 64) (h2 : nc < 2 ^ 64) (fname : List Char) (ha : ∀ c ∈ fname, c.utf8Size = 1) :
    ∃ h, headerOf nv nc fname = some h ∧ h.length = 59 ∧
      (fname.length + (vcOf nv nc).length < 59 → ∃ sp, (∀ c ∈ sp, c = ' ') ∧ h = fname ++ sp ++ vcOf nv nc) ∧
      (fname.length < 59 ∧ 59 ≤ fname.length + (vcOf nv nc).length → ∃ sp, (∀ c ∈ sp, c = ' ') ∧ h = fname ++ sp) ∧
      (59 ≤ fname.length → h = fname.take (58 - (vcOf nv nc).length) ++ ' ' :: vcOf nv nc) := by
  obtain ⟨e1, e2⟩ := vc_len h1 h2
  have e3 := utf8Len_ascii ha
  have hsp : ∀ n, ∀ c ∈ List.replicate n ' ', c = ' ' := fun n c hc => List.eq_of_mem_replicate hc
  unfold headerOf
  simp only []
  rw [e1, e3]
  by_cases hl : 59 ≤ fname.length
  · rw [if_pos hl, if_pos (by omega), truncateTo, if_pos (by omega), takeBytes_ascii ha (by omega)]
    have e4 : utf8Len (fname.take (58 - (vcOf nv nc).length)) = 58 - (vcOf nv nc).length := by
      rw [utf8Len_ascii fun c hc => ha c (List.mem_of_mem_take hc)]; simp; omega
    simp only [Option.bind_some, e4]
    rw [if_neg (by omega)]
    have e5 : 59 - (58 - (vcOf nv nc).length) - (vcOf nv nc).length = 1 := by omega
    rw [e5]
    refine ⟨_, rfl, ?_, fun _ => by omega, fun _ => by omega, fun _ => rfl⟩
    simp; omega
  · rw [if_neg hl]
    simp only [Option.bind_some, e3]
    split
    · refine ⟨_, rfl, by simp; omega, fun _ => by omega, fun _ => ⟨_, hsp _, rfl⟩, fun _ => by omega⟩
    · refine ⟨_, rfl, by simp; omega, fun _ => ⟨_, hsp _, (List.append_assoc _ _ _).symm⟩, fun _ => by omega, fun _ => by omega⟩

/-- **C70** (partial): any name of less than 59 bytes is printed. -/
theorem C70_short_partial (nv nc : Nat) (fname : List Char) (hs : utf8Len fname < 59) : ∃ t, headerOf nv nc fname = some (fname ++ t) := by
  unfold headerOf
  simp only []
  rw [if_neg (by omega)]
  simp only [Option.bind_some]
  split <;> exact ⟨_, rfl⟩

/-- A short and a long name. -/
example : headerOf 100 430 "uf100-010.cnf".toList = some "uf100-010.cnf                                       100,430".toList ∧
    headerOf 100 430 (List.replicate 70 'a') = some (List.replicate 51 'a' ++ ' ' :: "100,430".toList) := by decide +kernel

/-- **C70 is violated**: whatever the problem, there is a file name of at most 255 bytes, the limit of the usual file systems, with
which the program panics: the name is cut at a number of bytes, which can be inside a character (src/state.rs:821-823). -/
theorem C70_violated {nv nc : Nat} (h1 : nv < 2 ^ 64) (h2 : nc < 2 ^ 64) :
    ∃ fname : List Char, '/' ∉ fname ∧ utf8Len fname ≤ 255 ∧ headerOf nv nc fname = none := by
  obtain ⟨e1, e2⟩ := vc_len h1 h2
  refine ⟨List.replicate (57 - (vcOf nv nc).length) 'a' ++ List.replicate 60 'é', ?_, ?_, ?_⟩
  · intro h
    rcases List.mem_append.1 h with h | h
    · exact absurd (List.eq_of_mem_replicate h) (by decide)
    · exact absurd (List.eq_of_mem_replicate h) (by decide)
  · rw [utf8Len_append, utf8Len_replicate, utf8Len_replicate, show 'a'.utf8Size = 1 by decide, show 'é'.utf8Size = 2 by decide]
    omega
  · have key : ∀ k t, takeBytes (k + 1) (List.replicate k 'a' ++ 'é' :: t) = none := by
      intro k t
      have ha : 'a'.utf8Size = 1 := by decide
      induction k with
      | zero => rfl
      | succ k ih =>
        rw [List.replicate_succ, List.cons_append, takeBytes, if_pos (by rw [ha]; omega), ha, Nat.add_sub_cancel, ih]
        rfl
    have e3 : utf8Len (List.replicate (57 - (vcOf nv nc).length) 'a' ++ List.replicate 60 'é') = 57 - (vcOf nv nc).length + 120 := by
      rw [utf8Len_append, utf8Len_replicate, utf8Len_replicate, show 'a'.utf8Size = 1 by decide, show 'é'.utf8Size = 2 by decide]; omega
    unfold headerOf
    simp only []
    rw [e1, e3, if_pos (by omega), if_pos (by omega), truncateTo, e3, if_pos (by omega)]
    rw [show 58 - (vcOf nv nc).length = (57 - (vcOf nv nc).length) + 1 by omega, List.replicate_succ, key]
    rfl

end Splr
