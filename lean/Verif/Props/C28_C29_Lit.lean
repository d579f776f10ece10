import Verif.Lemmas.Lit
/-!
# C28 / C29: literal encoding

`x : Int` ranges over the DIMACS integers that fit an `i32` other than 0 and `i32::MIN`.
-/
namespace Splr.Enc

/-- Integer to literal to integer is the identity, as seen through the API conversions. -/
theorem C28_roundtrip (x : Int) (h : Supported x) : (toI32 (ofI32 (BitVec.ofInt 32 x))).toInt = x := by
  have hn := toNat_ofI32 x h
  obtain ⟨h0, h1, h2⟩ := h
  generalize ofI32 (BitVec.ofInt 32 x) = o at hn
  unfold toI32
  have hm : (o % 2#32 = 0#32) ↔ o.toNat % 2 = 0 := by
    rw [← BitVec.toNat_inj]; simp
  have hs : (o >>> 1).toNat = o.toNat / 2 := vi_eq o
  by_cases hp : 0 < x
  · rw [if_neg (by rw [hm]; simp [hp] at hn; omega)]
    rw [BitVec.toInt_eq_toNat_cond, hs]; simp [hp] at hn; split <;> omega
  · rw [if_pos (by rw [hm]; simp [hp] at hn; omega)]
    rw [BitVec.toInt_neg, BitVec.toInt_eq_toNat_cond, hs]; simp [hp] at hn; simp [Int.bmod]; split <;> split <;> omega

example : Supported 2147483647 ∧ Supported (-2147483647) ∧ Supported 1 := by
  refine ⟨⟨?_, ?_, ?_⟩, ⟨?_, ?_, ?_⟩, ⟨?_, ?_, ?_⟩⟩ <;> decide

/-- The literal denoted by the code of `x` is the DIMACS literal `x`: variable `|x|`, sign of `x`. -/
theorem C28_denotes (x : Int) (h : Supported x) :
    denote (ofI32 (BitVec.ofInt 32 x)) = Lit.ofInt x := by
  have hn := toNat_ofI32 x h
  unfold denote Lit.ofInt
  rw [vi_eq, asBool_eq, hn]
  by_cases hp : 0 < x <;> simp [hp] <;> omega

/-- Distinct integers have distinct codes. -/
theorem C28_injective (x y : Int) (hx : Supported x) (hy : Supported y)
    (h : ofI32 (BitVec.ofInt 32 x) = ofI32 (BitVec.ofInt 32 y)) : x = y := by
  have := congrArg (fun o => (toI32 o).toInt) h
  simpa [C28_roundtrip x hx, C28_roundtrip y hy] using this

/-- `!l` is the code of `-x`, and denotes the complementary literal. -/
theorem C28_not (x : Int) (h : Supported x) :
    not (ofI32 (BitVec.ofInt 32 x)) = ofI32 (BitVec.ofInt 32 (-x)) := by
  have hn := toNat_ofI32 x h
  have hneg : Supported (-x) := by obtain ⟨a, b, c⟩ := h; exact ⟨by omega, by omega, by omega⟩
  have hn' := toNat_ofI32 (-x) hneg
  apply BitVec.eq_of_toNat_eq
  rw [toNat_not, hn, hn']
  obtain ⟨h0, _, _⟩ := h
  by_cases hp : 0 < x
  · have : ¬ 0 < -x := by omega
    simp [hp]; omega
  · have : 0 < -x := by omega
    simp [hp]; omega

theorem C28_not_denotes (o : BitVec 32) : denote (not o) = (denote o).neg := by
  unfold denote Lit.neg
  rw [vi_eq, vi_eq, asBool_eq, asBool_eq, toNat_not]
  by_cases h : o.toNat % 2 = 0
  · simp [h]; constructor <;> omega
  · have : o.toNat % 2 = 1 := by omega
    simp [this]; constructor <;> omega

/-- Negation is an involution on every code. -/
theorem C28_not_not (o : BitVec 32) : not (not o) = o := by
  unfold not; rw [BitVec.xor_assoc]; simp

/-- A code is determined by its variable and sign (`Lit::from((vi, b))` is the inverse of `(vi, as_bool)`). -/
theorem C28_ofPair (v : Nat) (b : Bool) (h : v < 2147483648) : denote (ofPair v b) = ⟨v, b⟩ := by
  unfold denote
  rw [vi_eq, asBool_eq]
  have : (ofPair v b).toNat = 2 * v + (if b then 1 else 0) := by
    unfold ofPair
    cases b <;> simp [BitVec.toNat_add, BitVec.toNat_shiftLeft, Nat.shiftLeft_eq] <;> omega
  rw [this]
  cases b <;> simp <;> omega

theorem C28_denote_injective (o p : BitVec 32) (h : denote o = denote p) : o = p := by
  unfold denote at h
  simp only [Lit.mk.injEq] at h
  rw [vi_eq, vi_eq, asBool_eq, asBool_eq] at h
  apply BitVec.eq_of_toNat_eq
  obtain ⟨h1, h2⟩ := h
  have : (o.toNat % 2 = 1) ↔ (p.toNat % 2 = 1) := by simpa using h2
  omega

/-- The order on codes used when clauses are sorted (`derive(Ord)`, lit.rs:36) is: by variable, then
negative before positive; in particular `x` and `-x` are adjacent. -/
theorem C28_order (o p : BitVec 32) :
    o.toNat ≤ p.toNat ↔ (denote o).var < (denote p).var ∨
      ((denote o).var = (denote p).var ∧ ((denote o).pos = true → (denote p).pos = true)) := by
  simp only [denote, vi_eq, asBool_eq, decide_eq_true_eq]
  omega

/-- Outside the supported range the claim fails: the code of `i32::MIN` is 0 (undefined behaviour for
`NonZeroU32::new_unchecked`), and `i32::MIN` is not rejected by the conversion itself. -/
theorem C28_min_is_zero : ofI32 (BitVec.ofInt 32 (-2147483648)) = 0#32 := by decide

/-! ## C29: literals lifted to clause ids -/

/-- A lifted literal is always recognised as such. -/
theorem C29_lifted (o : BitVec 32) : isLifted (toCid o) = true := by
  unfold isLifted toCid
  rw [bne_iff_ne]
  intro h
  have := congrArg (fun b : BitVec 32 => b.getLsbD 31) h
  simp at this

/-- Unlifting gives the literal back, for every code below 2^31 (variables below 2^30). -/
theorem C29_unlift (o : BitVec 32) (h : o.toNat < 2147483648) : ofCid (toCid o) = o := by
  apply BitVec.eq_of_toNat_eq
  unfold ofCid
  rw [BitVec.toNat_and, toNat_toCid]
  have e : (0x7FFFFFFF#32).toNat = 0x7FFFFFFF := rfl
  rw [e, and_low]; omega

/-- A genuine clause id (an index below 2^31 - 1, so also different from the default id 0x7FFF_FFFF)
is never taken for a lifted literal. -/
theorem C29_genuine (u : Nat) (h : u < 2147483648) : isLifted (cidOfUsize u) = false := by
  unfold isLifted cidOfUsize
  rw [bne_eq_false_iff_eq]
  apply BitVec.eq_of_getLsbD_eq
  intro i hi
  have : i < 31 ∨ i = 31 := by omega
  rcases this with h' | h'
  · have : (0x80000000#32).getLsbD i = false := by
      have : ∀ j : Fin 31, (0x80000000#32).getLsbD j.val = false := by decide
      exact this ⟨i, h'⟩
    simp [this]
  · subst h'
    have : (BitVec.ofNat 32 u).getLsbD 31 = false := by
      have h2 : u % 4294967296 = u := Nat.mod_eq_of_lt (by omega)
      simp [BitVec.getLsbD, h2, Nat.testBit_lt_two_pow (x := u) (i := 31) h]
    simpa using this

theorem C29_id_roundtrip (u : Nat) (h : u < 4294967296) : cidToUsize (cidOfUsize u) = u := by
  simp [cidToUsize, cidOfUsize, Nat.mod_eq_of_lt h]

/-- Hence the two kinds never collide. -/
theorem C29_disjoint (o : BitVec 32) (u : Nat) (h : u < 2147483648) : toCid o ≠ cidOfUsize u := by
  intro hc
  have h1 := C29_lifted o
  rw [hc, C29_genuine u h] at h1
  exact absurd h1 (by decide)

example : ∃ o : BitVec 32, o.toNat < 2147483648 ∧ toCid o ≠ o := ⟨7#32, by decide, by decide⟩

/-- The bound is needed: codes at or above 2^31 (variables from 2^30 on) do collide when lifted. -/
theorem C29_bound_needed : ∃ o p : BitVec 32, o ≠ p ∧ toCid o = toCid p := ⟨5#32, 0x80000005#32, by decide, by decide⟩

end Splr.Enc
