import Verif.Model.Lit
/-! Helper lemmas for the literal encoding. -/
namespace Splr.Enc

theorem toNat_ofI32 (x : Int) (h : Supported x) :
    (ofI32 (BitVec.ofInt 32 x)).toNat = 2 * x.natAbs + (if 0 < x then 1 else 0) := by
  obtain ⟨h0, h1, h2⟩ := h
  unfold ofI32
  rw [BitVec.slt_eq_decide]
  have hx : (BitVec.ofInt 32 x).toInt = x := by
    rw [BitVec.toInt_ofInt]; simp [Int.bmod]; omega
  rw [hx]
  by_cases hneg : x < 0
  · have : ¬ 0 < x := by omega
    simp only [BitVec.toInt_zero, hneg, decide_true, if_true, this, if_false, BitVec.toNat_mul]
    simp [BitVec.toNat_neg, BitVec.toNat_ofInt]
    omega
  · have : 0 < x := by omega
    simp only [BitVec.toInt_zero, hneg, decide_false, this, if_true, BitVec.toNat_add, BitVec.toNat_mul]
    simp [BitVec.toNat_ofInt]
    omega

theorem vi_eq (o : BitVec 32) : vi o = o.toNat / 2 := by
  simp [vi, Nat.shiftRight_eq_div_pow]

theorem asBool_eq (o : BitVec 32) : asBool o = decide (o.toNat % 2 = 1) := by
  unfold asBool
  have : (o &&& 1#32).toNat = o.toNat % 2 := by
    rw [BitVec.toNat_and]; simpa using Nat.and_two_pow_sub_one_eq_mod o.toNat 1
  by_cases h : o &&& 1#32 = 1#32
  · rw [h] at this; simp [h] ; simpa using this.symm
  · have h' : (o &&& 1#32).toNat ≠ 1 := fun hc => h (by apply BitVec.eq_of_toNat_eq; simpa using hc)
    rw [this] at h'
    simp [h, h']

theorem toNat_not (o : BitVec 32) : (not o).toNat = if o.toNat % 2 = 0 then o.toNat + 1 else o.toNat - 1 := by
  unfold not
  rw [BitVec.toNat_xor]
  change o.toNat ^^^ 1 = _
  have h1 : (o.toNat ^^^ 1) / 2 = o.toNat / 2 := by simpa [Nat.xor_div_two] using Nat.xor_div_two (a := o.toNat) (b := 1)
  have h2 : (o.toNat ^^^ 1) % 2 = (o.toNat + 1) % 2 := by
    have := Nat.xor_mod_two_eq_one (a := o.toNat) (b := 1)
    omega
  split <;> omega

theorem and_low (n : Nat) : n &&& 0x7FFFFFFF = n % 2147483648 := by
  simpa using Nat.and_two_pow_sub_one_eq_mod n 31

theorem toNat_toCid (o : BitVec 32) : (toCid o).toNat = o.toNat % 2147483648 + 2147483648 := by
  have hlow : (toCid o) &&& 0x7FFFFFFF#32 = o &&& 0x7FFFFFFF#32 := by
    unfold toCid; ext i hi
    simp only [BitVec.getElem_and, BitVec.getElem_or]
    have : i < 31 ∨ i = 31 := by omega
    rcases this with h | h
    · have : (0x80000000#32)[i] = false := by
        revert hi; revert i; decide
      rw [this]; simp
    · subst h; simp
  have h1 := congrArg BitVec.toNat hlow
  simp only [BitVec.toNat_and] at h1
  have e : (0x7FFFFFFF#32).toNat = 0x7FFFFFFF := rfl
  rw [e, and_low, and_low] at h1
  have hmsb : (toCid o).getMsbD 0 = true := by
    unfold toCid; simp [BitVec.getMsbD]
  have hge : 2147483648 ≤ (toCid o).toNat := by
    have := BitVec.msb_eq_decide (toCid o)
    rw [BitVec.msb, hmsb] at this
    simpa using this
  have := (toCid o).isLt
  omega

end Splr.Enc
