import Verif.Model.Stage
import Verif.Lemmas.Luby
/-! Helper lemmas for the stage schedule. -/
namespace Splr.LubySpec

theorem lt_length_blocks (k : Nat) : k < (blocks (k+1)).length := by
  have := length_blocks (k+1)
  have h : k + 1 < 2 ^ (k+1) := Nat.lt_two_pow_self
  omega

theorem isLuby_lubyAt (k : Nat) : IsLuby k (lubyAt k) := by
  refine ⟨k+1, ?_⟩
  unfold lubyAt
  rw [List.getElem?_eq_getElem (lt_length_blocks k)]; rfl

theorem isLuby_eq {k x : Nat} (h : IsLuby k x) : x = lubyAt k := isLuby_unique h (isLuby_lubyAt k)

theorem lubyAt_of_blocks {n k : Nat} (h : k < (blocks n).length) : (blocks n)[k]? = some (lubyAt k) :=
  (isLuby_iff n k _ h).1 (isLuby_lubyAt k)

/-- last element of a block -/
theorem lubyAt_last (n : Nat) : lubyAt (2 ^ (n+1) - 2) = 2 ^ n := by
  have hl := length_blocks n
  have hp := two_pow_pos n
  have e1 : 2 ^ (n+1) = 2 * 2 ^ n := by rw [Nat.pow_succ]; omega
  symm
  apply isLuby_eq
  refine ⟨n+1, ?_⟩
  rw [blocks, List.getElem?_append_right (by simp; omega)]
  have : 2 ^ (n+1) - 2 - (blocks n ++ blocks n).length = 0 := by simp; omega
  rw [this]; rfl

/-- non-last elements of a block are small -/
theorem lubyAt_lt (n k : Nat) (h : k < 2 ^ (n+1) - 2) : lubyAt k < 2 ^ n := by
  have hl := length_blocks n
  have hp := two_pow_pos n
  have e1 : 2 ^ (n+1) = 2 * 2 ^ n := by rw [Nat.pow_succ]; omega
  have hk : k < (blocks (n+1)).length := by have := length_blocks (n+1); omega
  have hb := lubyAt_of_blocks hk
  rw [blocks, List.getElem?_append_left (by simp; omega)] at hb
  have hm : lubyAt k ∈ blocks n ++ blocks n := List.mem_of_getElem? hb
  have hm' : lubyAt k ∈ blocks n := by simpa using hm
  have := blocks_le n _ hm'
  have := blocks_pos n _ hm'
  omega

theorem lubyAt_zero : lubyAt 0 = 1 := by decide

theorem lubyAt_pow (n : Nat) (h : 0 < n) : lubyAt (2 ^ n - 1) = 1 := by
  have hl := length_blocks n
  have hp := two_pow_pos n
  symm; apply isLuby_eq
  refine ⟨n+1, ?_⟩
  have hp1 : 1 < 2 ^ n := Nat.one_lt_two_pow (by omega)
  rw [blocks, List.getElem?_append_left (by simp; omega), List.getElem?_append_right (by omega)]
  have : 2 ^ n - 1 - (blocks n).length = 0 := by omega
  rw [this]
  have := lubyAt_of_blocks (n := n) (k := 0) (by omega)
  rw [this, lubyAt_zero]

theorem ones_pos (k : Nat) : 1 ≤ ones (k+1) := by
  induction k with
  | zero => decide
  | succ k ih => rw [ones]; omega

theorem ends_lt (unit i : Nat) (h : 0 < unit) : ends unit i < ends unit (i+1) := by
  have : 0 < ones (i+1) * unit := Nat.mul_pos (ones_pos i) h
  rw [ends]; omega

theorem ends_mono (unit : Nat) (h : 0 < unit) {i j : Nat} (hij : i ≤ j) : ends unit i ≤ ends unit j := by
  induction hij with
  | refl => exact Nat.le_refl _
  | step _ ih => exact Nat.le_trans ih (Nat.le_of_lt (ends_lt unit _ h))

end Splr.LubySpec

namespace Splr.Stage
open Luby LubySpec

/-- Invariant after `k` stage changes of a search started on a fresh Luby iterator. -/
structure Sched (unit k : Nat) (m : StageManager) : Prop where
  luby : Luby.Inv m.luby
  idx : m.luby.index = k
  unit_eq : m.unitSize = unit
  cycle : m.cycle = ones k
  fin : m.endOfStage = ends unit k
  scale : ∃ j, 2 ^ j ≤ k + 1 ∧ k + 1 < 2 ^ (j+1) ∧ m.maxScaleOfSegment = 2 ^ j ∧
    (m.nextIsNewSegment = true ↔ k + 2 = 2 ^ (j+1))

theorem sched_init (u0 unit : Nat) : Sched unit 0 ((StageManager.new u0).initialize unit) where
  luby := inv_default
  idx := rfl
  unit_eq := rfl
  cycle := rfl
  fin := rfl
  scale := ⟨0, by decide, by decide, rfl, by simp [StageManager.initialize]⟩

theorem log2_unique {n j : Nat} (h1 : 2 ^ j ≤ n) (h2 : n < 2 ^ (j+1)) : Nat.log2 n = j := by
  have hn : n ≠ 0 := by have := two_pow_pos j; omega
  apply Nat.le_antisymm
  · have : Nat.log2 n < j + 1 := (Nat.log2_lt hn).2 h2
    omega
  · exact (Nat.le_log2 hn).2 h1

theorem sched_step (unit k : Nat) (m : StageManager) (h : Sched unit k m) :
    ∃ m', m.prepare (ends unit k) = some (stageFlag (k+1), m') ∧ Sched unit (k+1) m' := by
  obtain ⟨v, l, e, hi, hidx, hl, -⟩ := next_spec m.luby h.luby
  have hv : v = lubyAt (k+1) := by rw [h.idx] at hl; exact isLuby_eq hl
  obtain ⟨j, hj1, hj2, hms, hseg⟩ := h.scale
  have hpj := two_pow_pos j
  have e1 : 2 ^ (j+1) = 2 * 2 ^ j := by rw [Nat.pow_succ]; omega
  have e2 : 2 ^ (j+1+1) = 2 * 2 ^ (j+1) := by rw [Nat.pow_succ]; omega
  -- value facts
  by_cases hnew : k + 2 = 2 ^ (j+1)
  · -- first stage of a new segment
    have hv1 : v = 1 := by
      rw [hv]; have := lubyAt_pow (j+1) (by omega)
      rw [← hnew] at this; simpa using this
    have hsegt : m.nextIsNewSegment = true := hseg.2 hnew
    have hflag : stageFlag (k+1) = some true := by
      unfold stageFlag
      rw [← hv, if_pos hv1, log2_unique (j := j+1) (by omega) (by omega)]
      simp; omega
    have hne : ¬ (2 ^ j * 2 = 1) := by omega
    refine ⟨_, by unfold StageManager.prepare; rw [e]; simp [hv1, hsegt, hms, hne, hflag]; rfl, ?_⟩
    refine ⟨hi, by simp [hidx, h.idx], h.unit_eq, ?_, ?_, j+1, by omega, by omega, ?_, ?_⟩
    · simp only [ones, ← hv, hv1, h.cycle]; rfl
    · simp only [ends, ones, ← hv, hv1, StageManager.span, h.cycle, h.unit_eq]; rfl
    · simp; omega
    · simp; omega
  · have hsegf : m.nextIsNewSegment = false := by
      cases hb : m.nextIsNewSegment with
      | true => exact absurd (hseg.1 hb) hnew
      | false => rfl
    have hj2' : k + 2 < 2 ^ (j+1) := by omega
    have hmax : (2 ^ j = v) ↔ k + 3 = 2 ^ (j+1) := by
      constructor
      · intro hh
        rcases Nat.lt_or_ge (k+1) (2 ^ (j+1) - 2) with hlt | hge
        · have := lubyAt_lt j (k+1) hlt
          rw [← hv] at this; omega
        · omega
      · intro hh
        rw [hv]; have := lubyAt_last j
        have hk : k + 1 = 2 ^ (j+1) - 2 := by omega
        rw [hk, this]
    have hflag : stageFlag (k+1) = if v = 1 then some false else none := by
      unfold stageFlag
      rw [← hv, log2_unique (j := j) (by omega) (by omega)]
      have : ¬ (2 ^ j = k + 1 + 1) := by omega
      simp [this]
    by_cases hv1 : v = 1
    · by_cases hm : 2 ^ j = v
      · have hm1 : 2 ^ j = 1 := by omega
        refine ⟨_, by unfold StageManager.prepare; rw [e]; simp [hv1, hsegf, hms, hm1, hflag]; rfl, ?_⟩
        refine ⟨hi, by simp [hidx, h.idx], h.unit_eq, ?_, ?_, j, by omega, by omega, by simp [hm1], ?_⟩
        · simp only [ones, ← hv, hv1, h.cycle]; rfl
        · simp only [ends, ones, ← hv, hv1, StageManager.span, h.cycle, h.unit_eq]; rfl
        · simp; have := hmax.1 hm; omega
      · have hm1 : ¬ 2 ^ j = 1 := by omega
        refine ⟨_, by unfold StageManager.prepare; rw [e]; simp [hv1, hsegf, hms, hm1, hflag]; rfl, ?_⟩
        refine ⟨hi, by simp [hidx, h.idx], h.unit_eq, ?_, ?_, j, by omega, by omega, by first | rfl | simp, ?_⟩
        · simp only [ones, ← hv, hv1, h.cycle]; rfl
        · simp only [ends, ones, ← hv, hv1, StageManager.span, h.cycle, h.unit_eq]; rfl
        · simp [hsegf]; intro hc; exact hm (hmax.2 (by omega))
    · by_cases hm : 2 ^ j = v
      · refine ⟨_, by unfold StageManager.prepare; rw [e]; simp [hv1, hms, hm, hflag]; rfl, ?_⟩
        refine ⟨hi, by simp [hidx, h.idx], h.unit_eq, ?_, ?_, j, by omega, by omega, by simp_all, ?_⟩
        · simp only [ones, ← hv, if_neg hv1, h.cycle]; rfl
        · simp only [ends, ones, ← hv, if_neg hv1, StageManager.span, h.cycle, h.unit_eq]; rfl
        · simp; have := hmax.1 hm; omega
      · refine ⟨_, by unfold StageManager.prepare; rw [e]; simp [hv1, hms, hm, hflag]; rfl, ?_⟩
        refine ⟨hi, by simp [hidx, h.idx], h.unit_eq, ?_, ?_, j, by omega, by omega, by simp_all, ?_⟩
        · simp only [ones, ← hv, if_neg hv1, h.cycle]; rfl
        · simp only [ends, ones, ← hv, if_neg hv1, StageManager.span, h.cycle, h.unit_eq]; rfl
        · simp [hsegf]; intro hc; exact hm (hmax.2 (by omega))

/-- Invariant of the conflict loop. -/
def LoopInv (unit : Nat) (st : Nat × StageManager × List (Nat × Option Bool)) : Prop :=
  Sched unit st.2.2.length st.2.1 ∧ st.1 < ends unit st.2.2.length ∧
  (∀ i, i < st.2.2.length → ends unit i ≤ st.1 ∧ st.2.2[i]? = some (ends unit i, stageFlag (i+1)))

theorem loop_step (unit : Nat) (hu : 0 < unit) (st) (h : LoopInv unit st) (g : Bool) :
    ∃ st', conflict st g = some st' ∧ LoopInv unit st' ∧ st'.1 = st.1 + (if g then 1 else 0) := by
  obtain ⟨n, m, log⟩ := st
  obtain ⟨hs, hn, hlog⟩ := h
  simp only at hs hn hlog
  unfold conflict
  simp only
  generalize hn' : (if g = true then n + 1 else n) = n'
  have hn1 : n ≤ n' ∧ n' ≤ n + 1 := by subst hn'; split <;> omega
  have hn2 : n' = n + (if g then 1 else 0) := by subst hn'; cases g <;> simp
  by_cases he : m.endOfStage = n'
  · have : m.ended n' = true := by simp [StageManager.ended, he]
    rw [if_pos this]
    have hk : ends unit log.length = n' := by rw [← hs.fin]; exact he
    obtain ⟨m', hp, hs'⟩ := sched_step unit log.length m hs
    rw [hk] at hp
    rw [hp]
    refine ⟨_, rfl, ⟨?_, ?_, ?_⟩, hn2⟩
    · simpa using hs'
    · have := ends_lt unit log.length hu
      simp; omega
    · intro i hi
      simp at hi
      rcases Nat.lt_or_ge i log.length with hlt | hge
      · have := hlog i hlt
        refine ⟨by simp; omega, ?_⟩
        simp only; rw [List.getElem?_append_left hlt]; exact this.2
      · have : i = log.length := by omega
        subst this
        refine ⟨by simp; omega, ?_⟩
        simp [hk]
  · have : m.ended n' = false := by simp [StageManager.ended, he]
    rw [this]
    refine ⟨_, rfl, ⟨hs, ?_, ?_⟩, hn2⟩
    · simp only; have := hs.fin; omega
    · intro i hi
      have := hlog i hi
      exact ⟨by simp; omega, this.2⟩

theorem loop_run (unit : Nat) (hu : 0 < unit) (cs : List Bool) : ∀ st, LoopInv unit st →
    ∃ st', cs.foldl (fun st g => st.bind (conflict · g)) (some st) = some st' ∧ LoopInv unit st' ∧
      st'.1 = st.1 + cs.count true := by
  induction cs with
  | nil => intro st h; exact ⟨st, rfl, h, rfl⟩
  | cons g cs ih =>
    intro st h
    obtain ⟨st1, e1, h1, hn1⟩ := loop_step unit hu st h g
    obtain ⟨st2, e2, h2, hn2⟩ := ih st1 h1
    refine ⟨st2, by simp [e1, e2], h2, ?_⟩
    rw [hn2, hn1]; cases g <;> simp; omega

theorem stuck_run (m : StageManager) (log) (N : Nat) : ∀ n, m.endOfStage < n →
    (List.replicate N true).foldl (fun st g => st.bind (conflict · g)) (some (n, m, log)) = some (n + N, m, log) := by
  induction N with
  | zero => intro n _; rfl
  | succ N ih =>
    intro n h
    simp only [List.replicate_succ, List.foldl_cons, Option.bind_some]
    have : conflict (n, m, log) true = some (n+1, m, log) := by
      have hh : m.ended (n+1) = false := by simp [StageManager.ended]; omega
      simp [conflict, hh]
    rw [this, ih (n+1) (by omega)]
    congr 2; omega

end Splr.Stage
