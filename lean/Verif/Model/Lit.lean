import Verif.Spec.Sem
/-!
# Literal and clause-id encoding (src/types/lit.rs, src/types/idx.rs)

Machine integers are `BitVec 32` with wrapping arithmetic (release profile: `overflow-checks` off).
`NonZeroU32::new_unchecked` is a plain `BitVec 32`; ordinal 0 is undefined behaviour in Rust and is
excluded by the hypotheses of the theorems.
-/
namespace Splr.Enc

/-- src/types/lit.rs:86-95 `impl From<i32> for Lit`:
`(if x < 0 { -2 * x } else { 2 * x + 1 }) as u32`. -/
def ofI32 (x : BitVec 32) : BitVec 32 :=
  if x.slt 0#32 then (-2#32) * x else 2#32 * x + 1#32

/-- src/types/lit.rs:133-142 (and 144-153) `impl From<Lit> for i32`. -/
def toI32 (o : BitVec 32) : BitVec 32 :=
  if o % 2#32 = 0#32 then -(o >>> 1) else o >>> 1

/-- src/types/lit.rs:59-66 `impl From<(VarId, bool)> for Lit`: `((vi as u32) << 1) + (b as u32)`. -/
def ofPair (vi : Nat) (b : Bool) : BitVec 32 :=
  (BitVec.ofNat 32 vi <<< 1) + (if b then 1#32 else 0#32)

/-- src/types/lit.rs:155-163 `impl Not for Lit`: `ordinal ^ 1`. -/
def not (o : BitVec 32) : BitVec 32 := o ^^^ 1#32

/-- src/types/lit.rs:235-238 `vi`: `(ordinal >> 1) as usize`. -/
def vi (o : BitVec 32) : Nat := (o >>> 1).toNat

/-- src/types/lit.rs:231-234 `as_bool`: `ordinal & 1 == 1` (also 108-115 `From<Lit> for bool`). -/
def asBool (o : BitVec 32) : Bool := (o &&& 1#32) == 1#32

/-- src/types/lit.rs:117-124 `impl From<Lit> for ClauseId`: `ordinal | 0x8000_0000`. -/
def toCid (o : BitVec 32) : BitVec 32 := o ||| 0x80000000#32

/-- src/types/lit.rs:97-106 `impl From<ClauseId> for Lit`: `ordinal & 0x7FFF_FFFF`. -/
def ofCid (c : BitVec 32) : BitVec 32 := c &&& 0x7FFFFFFF#32

/-- src/types/idx.rs:63-68 `is_lifted_lit`: `0 != 0x8000_0000 & ordinal`. -/
def isLifted (c : BitVec 32) : Bool := (0#32) != (0x80000000#32 &&& c)

/-- src/types/idx.rs:35-42 `impl From<usize> for ClauseId`: `u as u32`. -/
def cidOfUsize (u : Nat) : BitVec 32 := BitVec.ofNat 32 u

/-- src/types/idx.rs:44-48 `impl From<ClauseId> for usize`. -/
def cidToUsize (c : BitVec 32) : Nat := c.toNat

/-- The literal that an ordinal denotes (used by the rest of the model). -/
def denote (o : BitVec 32) : Lit := ⟨vi o, asBool o⟩

/-- (specification) The supported i32 values: everything but 0 and `i32::MIN`. -/
def Supported (x : Int) : Prop := x ≠ 0 ∧ -2147483648 < x ∧ x < 2147483648

end Splr.Enc
