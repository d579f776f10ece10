import Verif.Model.Luby
import Verif.Spec.Luby
/-! Helper lemmas for the Luby generator. -/
namespace Splr.LubySpec

theorem two_pow_pos (n : Nat) : 0 < 2 ^ n := Nat.pow_pos (by decide)

theorem length_blocks (n : Nat) : (blocks n).length + 1 = 2 ^ n := by
  induction n with
  | zero => rfl
  | succ n ih => simp [blocks, Nat.pow_succ]; omega

theorem blocks_prefix_succ (n k : Nat) (h : k < (blocks n).length) : (blocks (n+1))[k]? = (blocks n)[k]? := by
  simp only [blocks]
  rw [List.append_assoc, List.getElem?_append_left h]

theorem blocks_prefix (n m k : Nat) (h : k < (blocks n).length) : (blocks (n+m))[k]? = (blocks n)[k]? := by
  induction m with
  | zero => rfl
  | succ m ih =>
    rw [← ih, ← Nat.add_assoc]
    apply blocks_prefix_succ
    have : (blocks (n+m)).length + 1 = 2 ^ (n+m) := length_blocks _
    have h2 := length_blocks n
    have : 2 ^ n ≤ 2 ^ (n+m) := Nat.pow_le_pow_right (by decide) (by omega)
    omega

theorem isLuby_iff (n k x : Nat) (h : k < (blocks n).length) : IsLuby k x ↔ (blocks n)[k]? = some x := by
  constructor
  · rintro ⟨m, hm⟩
    have hk : k < (blocks m).length := by
      rw [List.getElem?_eq_some_iff] at hm; exact hm.1
    rcases Nat.le_total n m with hle | hle
    · obtain ⟨d, rfl⟩ := Nat.exists_eq_add_of_le hle
      rw [blocks_prefix n d k h] at hm; exact hm
    · obtain ⟨d, rfl⟩ := Nat.exists_eq_add_of_le hle
      rw [blocks_prefix m d k hk]; exact hm
  · intro h; exact ⟨n, h⟩

theorem isLuby_unique {k x y : Nat} (hx : IsLuby k x) (hy : IsLuby k y) : x = y := by
  obtain ⟨n, hn⟩ := hx
  have hk : k < (blocks n).length := by rw [List.getElem?_eq_some_iff] at hn; exact hn.1
  rw [isLuby_iff n k y hk, hn] at hy
  exact Option.some.inj hy

theorem blocks_le (n : Nat) : ∀ x ∈ blocks n, 2 * x ≤ 2 ^ n := by
  induction n with
  | zero => simp [blocks]
  | succ n ih =>
    intro x hx
    simp only [blocks, List.mem_append, List.mem_singleton] at hx
    rw [Nat.pow_succ]
    rcases hx with (hx | hx) | hx
    · have := ih x hx; omega
    · have := ih x hx; omega
    · omega

theorem blocks_pos (n : Nat) : ∀ x ∈ blocks n, 0 < x := by
  induction n with
  | zero => simp [blocks]
  | succ n ih =>
    intro x hx
    simp only [blocks, List.mem_append, List.mem_singleton] at hx
    rcases hx with (hx | hx) | hx
    · exact ih x hx
    · exact ih x hx
    · subst hx; exact two_pow_pos n

end Splr.LubySpec

namespace Splr.Luby
open LubySpec

/-- The second loop reads the Luby block table. -/
theorem shrink_spec (n : Nat) : ∀ (fuel index : Nat), 2 ^ (n+1) - 1 < fuel → index < 2 ^ (n+1) - 1 →
    ∃ e : Nat, shrink fuel (2 ^ (n+1) - 1) (n : Int) index = some (e : Int) ∧
      (blocks (n+1))[index]? = some (2 ^ e) := by
  induction n with
  | zero =>
    intro fuel index hf hi
    have : index = 0 := by omega
    subst this
    obtain ⟨f, rfl⟩ : ∃ f, fuel = f + 1 := ⟨fuel - 1, by omega⟩
    exact ⟨0, by simp [shrink], by simp [blocks]⟩
  | succ n ih =>
    intro fuel index hf hi
    obtain ⟨f, rfl⟩ : ∃ f, fuel = f + 1 := ⟨fuel - 1, by omega⟩
    have hp := two_pow_pos n
    have e1 : 2 ^ (n+1) = 2 * 2 ^ n := by rw [Nat.pow_succ]; omega
    have e2 : 2 ^ (n+1+1) = 4 * 2 ^ n := by rw [Nat.pow_succ, e1]; omega
    rw [e1] at ih
    rw [e2] at hf hi ⊢
    have hlen := length_blocks (n+1)
    rw [e1] at hlen
    unfold shrink
    rw [if_neg (by omega)]
    by_cases hlast : 4 * 2 ^ n - 1 - 1 = index
    · rw [if_pos hlast]
      refine ⟨n+1, rfl, ?_⟩
      rw [blocks, List.getElem?_append_right (by simp; omega)]
      have : index - (blocks (n+1) ++ blocks (n+1)).length = 0 := by simp; omega
      rw [this]; simp
    · rw [if_neg hlast]
      have hs : (4 * 2 ^ n - 1 - 1) / 2 = 2 * 2 ^ n - 1 := by omega
      simp only [hs]
      rw [if_neg (by omega)]
      have hmod : index % (2 * 2 ^ n - 1) < 2 * 2 ^ n - 1 := Nat.mod_lt _ (by omega)
      obtain ⟨e, he1, he2⟩ := ih f (index % (2 * 2^n - 1)) (by omega) hmod
      refine ⟨e, ?_, ?_⟩
      · have : ((n + 1 : Nat) : Int) - 1 = (n : Int) := by omega
        rw [this]; exact he1
      · rw [blocks, List.getElem?_append_left (by simp; omega)]
        by_cases hlt : index < (blocks (n+1)).length
        · rw [List.getElem?_append_left hlt]
          rw [Nat.mod_eq_of_lt (by omega)] at he2; exact he2
        · rw [List.getElem?_append_right (by omega)]
          have : index - (blocks (n+1)).length = index % (2 * 2 ^ n - 1) := by
            rw [Nat.mod_eq_sub_mod (by omega), Nat.mod_eq_of_lt (by omega)]; omega
          rw [this]; exact he2

/-- Invariant of the cached fields. -/
def Inv (s : LubySeries) : Prop :=
  ∃ n : Nat, s.seq = n ∧ s.size = 2 ^ (n+1) - 1

theorem grow_spec (target : Nat) : ∀ (d n m : Nat), target - (2 ^ (n+1) - 1) ≤ d →
    ∃ n' m' : Nat, grow target (n : Int) (2 ^ (n+1) - 1) (m : Int) (2 ^ (m+1) - 1)
        = ((n' : Int), 2 ^ (n'+1) - 1, (m' : Int), 2 ^ (m'+1) - 1) ∧ target ≤ 2 ^ (n'+1) - 1 := by
  intro d
  induction d with
  | zero =>
    intro n m h
    refine ⟨n, m, ?_, by omega⟩
    rw [grow, if_neg (by omega)]
  | succ d ih =>
    intro n m h
    by_cases hlt : 2 ^ (n+1) - 1 < target
    · have hp := two_pow_pos n
      have e1 : 2 ^ (n+1) = 2 * 2 ^ n := by rw [Nat.pow_succ]; omega
      have e2 : 2 ^ (n+1+1) = 4 * 2 ^ n := by rw [Nat.pow_succ, e1]; omega
      obtain ⟨n', m', h1, h2⟩ := ih (n+1) n (by omega)
      refine ⟨n', m', ?_, h2⟩
      rw [grow, if_pos hlt, ← h1]
      congr 1
      omega
    · refine ⟨n, m, ?_, by omega⟩
      rw [grow, if_neg hlt]

theorem next_spec (s : LubySeries) (h : Inv s) :
    ∃ v s', s.next = some (v, s') ∧ Inv s' ∧ s'.index = s.index + 1 ∧ IsLuby (s.index + 1) v ∧
      s'.maxValue = max s.maxValue v := by
  obtain ⟨n, h1, h2⟩ := h
  obtain ⟨n', m', hg, hle⟩ := grow_spec (s.index + 1 + 1) (s.index + 1 + 1) n n (by omega)
  have hp := two_pow_pos n'
  have e1 : 2 ^ (n'+1) = 2 * 2 ^ n' := by rw [Nat.pow_succ]; omega
  obtain ⟨e, hs, hb⟩ := shrink_spec n' (2 ^ (n'+1) - 1 + 1) (s.index + 1) (by omega) (by omega)
  refine ⟨2 ^ e, ⟨s.index + 1, m', 2 ^ (m'+1) - 1, if s.maxValue < 2 ^ e then 2 ^ e else s.maxValue⟩,
    ?_, ⟨m', rfl, rfl⟩, rfl, ⟨_, hb⟩, ?_⟩
  · unfold LubySeries.next
    simp only [h1, h2, hg, hs]
    rw [if_neg (by omega)]
    simp
  · simp only; split <;> omega

theorem inv_default : Inv .default := ⟨0, rfl, rfl⟩
theorem inv_reset (s : LubySeries) : Inv s.reset := ⟨0, rfl, rfl⟩

/-- (specification of histories) the number of `next` calls since the last `reset`, starting from `m`. -/
def sinceReset : Nat → List Op → Nat
  | m, [] => m
  | m, .next :: ops => sinceReset (m+1) ops
  | _, .reset :: ops => sinceReset 0 ops

theorem run_inv (ops : List Op) : ∀ s, Inv s →
    ∃ vs s', run s ops = some (vs, s') ∧ Inv s' ∧ s'.index = sinceReset s.index ops ∧
      s'.maxValue = vs.foldl max s.maxValue := by
  induction ops with
  | nil => intro s h; exact ⟨[], s, rfl, h, rfl, rfl⟩
  | cons op ops ih =>
    intro s h
    cases op with
    | next =>
      obtain ⟨v, s', e, hi, hidx, -, hmax⟩ := next_spec s h
      obtain ⟨vs, s'', e2, hi2, hidx2, hmax2⟩ := ih s' hi
      refine ⟨v :: vs, s'', by simp [run, e, e2], hi2, ?_, ?_⟩
      · rw [hidx2, hidx]; rfl
      · rw [hmax2, hmax]; rfl
    | reset =>
      obtain ⟨vs, s'', e2, hi2, hidx2, hmax2⟩ := ih s.reset (inv_reset s)
      exact ⟨vs, s'', by simp [run, e2], hi2, hidx2, hmax2⟩

end Splr.Luby
