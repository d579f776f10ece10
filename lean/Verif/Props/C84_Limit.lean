import Verif.Model.Limit
import Mathlib.Tactic.Linarith
import Mathlib.Tactic.NormNum
import Verif.Props.C81_Program
/-!
# C84: the time limit
-/
namespace Splr.Limit

theorem timesOut_iff (limit : F) (t : Nat) : timesOut limit t = true ↔ limit.asU64 * 1000000000 ≤ t ∧ 0 < t := by
  unfold timesOut elapsed F.quot
  generalize limit.asU64 = n
  by_cases hn : n = 0
  · subst hn
    by_cases ht : t = 0
    · subst ht; simp [F.oneLe]
    · have : ¬ ((t : ℚ) / 1000000000 = 0) := by simp [ht]
      simp [F.oneLe, this, Nat.pos_of_ne_zero ht]
  · have h0 : ((n : Nat) : ℚ) ≠ 0 := by exact_mod_cast hn
    have hp : (0 : ℚ) < n := by exact_mod_cast Nat.pos_of_ne_zero hn
    rw [if_neg h0]
    simp only [F.oneLe, decide_eq_true_eq]
    rw [le_div_iff₀ hp, le_div_iff₀ (by norm_num), one_mul]
    constructor
    · intro h
      have h' : n * 1000000000 ≤ t := by exact_mod_cast h
      exact ⟨h', by omega⟩
    · rintro ⟨h, -⟩
      exact_mod_cast h

/-- The times before the limit, in seconds. -/
def seconds (t : Nat) : ℚ := (t : ℚ) / 1000000000

/-- **C84.** A limit of `q` seconds, `0 ≤ q < 2^64`: at the end of a stage the search gives up if the time is over, and not earlier than one second before. For a whole
number of seconds (at least 1) it gives up exactly if the time is over. Missing for the full property: fractions of seconds are dropped (`C84_violated`). -/
theorem C84_limit_partial {q : ℚ} (h0 : 0 ≤ q) (h1 : q < 2 ^ 64) {t : Nat} (ht : 0 < t) :
    (q ≤ seconds t → timesOut (.val q) t = true) ∧ (timesOut (.val q) t = true → q - 1 < seconds t) ∧
    (∀ k : Nat, q = k → (timesOut (.val q) t = true ↔ q ≤ seconds t)) := by
  have hfl : (0 : ℤ) ≤ ⌊q⌋ := Int.floor_nonneg.2 h0
  have hlt : ⌊q⌋ < 2 ^ 64 := by
    rw [Int.floor_lt]; exact_mod_cast h1
  have hu : (F.val q).asU64 = ⌊q⌋.toNat := by
    simp only [F.asU64]
    rw [Nat.min_eq_left]
    omega
  have hc : ((⌊q⌋.toNat : Nat) : ℚ) = (⌊q⌋ : ℚ) := by
    have : ((⌊q⌋.toNat : Nat) : ℤ) = ⌊q⌋ := Int.toNat_of_nonneg hfl
    exact_mod_cast congrArg (fun z : ℤ => (z : ℚ)) this
  have key : timesOut (.val q) t = true ↔ (⌊q⌋ : ℚ) ≤ seconds t := by
    rw [timesOut_iff, hu]
    unfold seconds
    rw [le_div_iff₀ (by norm_num), ← hc]
    constructor
    · rintro ⟨h, -⟩; exact_mod_cast h
    · intro h; exact ⟨by exact_mod_cast h, ht⟩
  refine ⟨fun h => key.2 ((Int.floor_le q).trans h), fun h => ?_, fun k hk => ?_⟩
  · have := key.1 h
    have := Int.lt_floor_add_one q
    linarith
  · rw [key, hk]; simp

/-- The limit of the default configuration is exact. -/
example (t : Nat) (ht : 0 < t) : timesOut (.val 5000) t = true ↔ 5000 ≤ seconds t :=
  (C84_limit_partial (by norm_num) (by norm_num) ht).2.2 5000 (by norm_num)

/-- **C84 is violated.** With a limit below one second, the search gives up at the end of the first stage, whenever that is: after a nanosecond with `--timeout 0.9`. -/
theorem C84_violated {q : ℚ} (_h0 : 0 ≤ q) (h1 : q < 1) {t : Nat} (ht : 0 < t) : timesOut (.val q) t = true := by
  rw [timesOut_iff]
  have : ⌊q⌋ < 1 := by rw [Int.floor_lt]; exact_mod_cast h1
  have h : (F.val q).asU64 = 0 := by
    simp only [F.asU64]
    have : ⌊q⌋.toNat = 0 := by omega
    rw [this]; simp
  rw [h]; omega

example : timesOut (.val (9 / 10)) 1 = true ∧ ¬ ((9 / 10 : ℚ) ≤ seconds 1) := ⟨C84_violated (by norm_num) (by norm_num) (by norm_num), by norm_num [seconds]⟩

/-- **C84.** Negative numbers, NaN (`--timeout nan`) and minus infinity are limits of 0 seconds, infinity is one of 2^64 - 1 seconds. -/
theorem C84_odd_limits {t : Nat} (ht : 0 < t) : (∀ q : ℚ, q < 0 → timesOut (.val q) t = true) ∧ timesOut .nan t = true ∧ timesOut .negInf t = true ∧
    (timesOut .posInf t = true ↔ (2 ^ 64 - 1 : ℚ) ≤ seconds t) := by
  refine ⟨fun q hq => ?_, by rw [timesOut_iff]; simp [F.asU64, ht], by rw [timesOut_iff]; simp [F.asU64, ht], ?_⟩
  · rw [timesOut_iff]
    have : ⌊q⌋ < 0 := by rw [Int.floor_lt]; exact_mod_cast hq
    have h : (F.val q).asU64 = 0 := by
      simp only [F.asU64]
      have : ⌊q⌋.toNat = 0 := by omega
      rw [this]; simp
    rw [h]; omega
  · rw [timesOut_iff]
    unfold seconds
    rw [le_div_iff₀ (by norm_num)]
    simp only [F.asU64]
    constructor
    · rintro ⟨h, -⟩
      have : (((2 ^ 64 - 1) * 1000000000 : Nat) : ℚ) ≤ (t : ℚ) := by exact_mod_cast h
      norm_num at this ⊢; exact this
    · intro h
      refine ⟨?_, ht⟩
      have : (((2 ^ 64 - 1) * 1000000000 : Nat) : ℚ) ≤ (t : ℚ) := by norm_num at h ⊢; exact h
      exact_mod_cast this

/-- **C84.** The exported test `is_timeout` is never ahead of the test in the search; a nanosecond later it is not behind either. -/
theorem C84_is_timeout (limit : F) (t : Nat) :
    (isTimeout limit t = true → timesOut limit t = true) ∧ (timesOut limit t = true → isTimeout limit (t + 1) = true) ∧
    (∀ k : Nat, k < 2 ^ 64 → limit = .val k → (isTimeout limit t = true ↔ (k : ℚ) < seconds t)) := by
  rw [timesOut_iff]
  simp only [isTimeout, decide_eq_true_eq]
  refine ⟨by omega, by omega, ?_⟩
  rintro k hk rfl
  have hu : (F.val (k : ℚ)).asU64 = k := by
    simp only [F.asU64, Int.floor_natCast, Int.toNat_natCast]
    omega
  rw [hu]
  unfold seconds
  rw [lt_div_iff₀ (by norm_num)]
  constructor
  · intro h; exact_mod_cast h
  · intro h; exact_mod_cast h

example : isTimeout (.val 2) 2000000000 = false ∧ isTimeout (.val 2) 2000000001 = true := by decide +kernel

/-- **C84.** A limit is kept up to the end: once it is over it stays so. -/
theorem C84_monotone {limit : F} {t u : Nat} (h : t ≤ u) (e : timesOut limit t = true) : timesOut limit u = true := by
  rw [timesOut_iff] at *; omega

open Stk QStk Stage LubySpec Dimacs Cert

/-- **C84.** The program with a time limit of `q` seconds that is asked for the time at the times `clock`, all at least a second before the limit: it decides the file
(exit code 10 or 20, never 0). -/
theorem C84_decides_in_time {K : Type} [LinearOrder K] {q : ℚ} (h0 : 0 ≤ q) (h1 : q < 2 ^ 64) {pre : List (List Char)} {nv nc : Nat} {body : List Line}
    (h : GoodFile pre nv nc body) (hn : nv < 65535) {c : CfgW} (hen : c.cfg.enable = true) {p : PreW} {u : Nat} {ts : List (TickW K)}
    (hp : p.oom = false ∧ p.oom1 = false ∧ p.oom2 = false) (hts : ∀ t ∈ ts, t.oom = false) (clock : TickW K → Nat)
    (hclock : ∀ t ∈ ts, t.timeout = timesOut (.val q) (clock t)) (hearly : ∀ t ∈ ts, seconds (clock t) ≤ q - 1)
    (hpr : p.ctl.Real) (htr : ∀ t ∈ ts, t.ctl.Real) (act : Nat → Nat → Nat → Bool)
    (ha : ∀ x, SolQ.load act (fileText pre nv nc body) = .ok x → ampleRunA c p (StageManager.new u) {} ts x = true) (hl : answerBound nv ≤ ts.length) (low : Nat → Bool)
    (report : List (List Char)) :
    ((formOf body).Satisfiable ∧ ∃ ans, splrA c p u ts low act report (fileText pre nv nc body) = .exits 10 ans none) ∨
    (¬ (formOf body).Satisfiable ∧ ∃ ans proof, splrA c p u ts low act report (fileText pre nv nc body) = .exits 20 ans (some proof)) := by
  refine C81_exit_codes h hn hen hp (fun t ht => ⟨?_, hts t ht⟩) hpr htr act ha hl low report
  rw [hclock t ht]
  by_contra hto
  rw [Bool.not_eq_false] at hto
  have hpos : 0 < clock t := ((timesOut_iff _ _).1 hto).2
  have := (C84_limit_partial h0 h1 hpos).2.1 hto
  have := hearly t ht
  linarith

/-- The hypotheses about the clock are met (the others as in `C81_exit_codes`). -/
example : ∀ t ∈ List.replicate 30 exTickW, t.timeout = timesOut (.val (5 / 2)) ((fun _ : TickW Int => 1500000000) t) ∧
    seconds ((fun _ : TickW Int => 1500000000) t) ≤ 5 / 2 - 1 := by
  intro t ht
  rw [(List.mem_replicate.1 ht).2]
  refine ⟨?_, by norm_num [seconds]⟩
  have : timesOut (.val (5 / 2)) 1500000000 ≠ true := fun e => by
    have := (C84_limit_partial (q := 5 / 2) (by norm_num) (by norm_num) (t := 1500000000) (by norm_num)).2.1 e
    norm_num [seconds] at this
  exact (Bool.eq_false_iff.2 this).symm

end Splr.Limit
