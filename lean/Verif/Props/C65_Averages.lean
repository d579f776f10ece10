import Verif.Spec.Average
import Verif.Model.Ema
import Mathlib.Algebra.BigOperators.Ring.Finset
import Mathlib.Tactic.Ring
import Mathlib.Tactic.Linarith
import Mathlib.Tactic.FieldSimp
import Mathlib.Tactic.NormNum
import Mathlib.Algebra.Order.Ring.Rat
/-!
# C65: the running averages and the restart test
-/
namespace Splr
open Avg

variable {K : Type} [Field K]

/-! ## Exponential averages -/

theorem expMean_snoc (a v : K) (xs : List K) (x : K) : expMean a v (xs ++ [x]) = a * x + (1 - a) * expMean a v xs := by
  unfold expMean
  simp only [List.length_append, List.length_singleton, List.reverse_append, List.reverse_singleton, List.singleton_append]
  rw [Finset.sum_range_succ']
  simp only [List.getD_cons_succ, List.getD_cons_zero, pow_zero, mul_one]
  rw [mul_add, Finset.mul_sum]
  have : ∀ k, a * (1 - a) ^ (k + 1) * xs.reverse.getD k 0 = (1 - a) * (a * (1 - a) ^ k * xs.reverse.getD k 0) := fun k => by ring
  simp only [this]
  ring

theorem expMean_nil (a v : K) : expMean a v [] = v := by simp [expMean]

theorem ema_run (e : Ema K) (xs : List K) : (xs.foldl Ema.update e).sca = e.sca ∧ (xs.foldl Ema.update e).get = expMean e.sca e.get xs := by
  induction xs using List.reverseRecOn with
  | nil => simp [expMean_nil]
  | append_singleton xs x ih =>
    rw [List.foldl_append, expMean_snoc, ← ih.2]
    simp only [List.foldl_cons, List.foldl_nil, Ema.update, Ema.get, ih.1, true_and]

/-- **C65**, `Ema`: after any inputs the value is the exponentially weighted average of the inputs and of the initial value. -/
theorem C65_ema (s : Nat) (v : K) (xs : List K) :
    (xs.foldl Ema.update ((Ema.new s).withValue v)).get = expMean (1 / (s : K)) v xs ∧
    (xs.foldl Ema.update (Ema.new s)).get = expMean (1 / (s : K)) 0 xs := ⟨(ema_run _ xs).2, (ema_run _ xs).2⟩

/-- **C65**, `Ema2`: two exponentially weighted averages of the same inputs. -/
theorem C65_ema2 (s t : Nat) (v : K) (xs : List K) :
    let e := xs.foldl Ema2.update (((Ema2.new s).withSlow t).withValue v)
    e.ema.fast = expMean (1 / (s : K)) v xs ∧ e.ema.slow = expMean (1 / (t : K)) v xs := by
  have : ∀ (e : Ema2 K) (xs : List K), let f := xs.foldl Ema2.update e
      f.fe = e.fe ∧ f.se = e.se ∧ f.ema.fast = expMean e.fe e.ema.fast xs ∧ f.ema.slow = expMean e.se e.ema.slow xs := by
    intro e xs
    induction xs using List.reverseRecOn with
    | nil => simp [expMean_nil]
    | append_singleton xs x ih =>
      obtain ⟨h1, h2, h3, h4⟩ := ih
      simp only [List.foldl_append, List.foldl_cons, List.foldl_nil, expMean_snoc, ← h3, ← h4]
      simp only [Ema2.update, h1, h2, and_self]
  exact (this _ xs).2.2

/-- **C65**, `EmaSU`: the exponentially weighted average of the increments of a counter. -/
theorem C65_emaSU (s : Nat) (xs : List Nat) :
    (xs.foldl EmaSU.update (EmaSU.new s)).ema.get = expMean (1 / (s : K)) 0 (increments 0 (xs.map fun n => (n : K))) := by
  have : ∀ (xs : List Nat) (e : EmaSU K), (xs.foldl EmaSU.update e).ema = (increments e.last (xs.map fun n => (n : K))).foldl Ema.update e.ema := by
    intro xs
    induction xs with
    | nil => intro e; rfl
    | cons x xs ih => intro e; exact ih _
  rw [this, (ema_run _ _).2]; rfl

section
variable [LinearOrder K] [IsStrictOrderedRing K]

/-- An exponentially weighted average lies between any bounds of the inputs and of the initial value. -/
theorem C65_between (s : Nat) (hs : 1 ≤ s) (v lo hi : K) (xs : List K) (hv : lo ≤ v ∧ v ≤ hi) (h : ∀ x ∈ xs, lo ≤ x ∧ x ≤ hi) :
    lo ≤ expMean (1 / (s : K)) v xs ∧ expMean (1 / (s : K)) v xs ≤ hi := by
  have hs1 : (1 : K) ≤ s := by exact_mod_cast hs
  have h0 : (0 : K) ≤ 1 / s := by positivity
  have h1 : (1 : K) / s ≤ 1 := by rw [div_le_one (by linarith)]; exact hs1
  generalize (1 : K) / s = a at h0 h1 ⊢
  induction xs using List.reverseRecOn with
  | nil => simpa [expMean_nil] using hv
  | append_singleton xs x ih =>
    rw [expMean_snoc]
    have hx := h x (by simp)
    have hi := ih (fun y hy => h y (by simp [hy]))
    have e1 := mul_le_mul_of_nonneg_left hx.1 h0
    have e2 := mul_le_mul_of_nonneg_left hx.2 h0
    have e3 := mul_le_mul_of_nonneg_left hi.1 (sub_nonneg.2 h1)
    have e4 := mul_le_mul_of_nonneg_left hi.2 (sub_nonneg.2 h1)
    constructor <;> linarith
end

/-! ## The window -/

structure RingOK (N : Nat) (v : K) (xs : List K) (e : Ewa2 K) : Prop where
  ring : ∃ A B : List K, e.pool = A ++ B ∧ e.last = A.length ∧ B ≠ [] ∧ A.length + B.length = N ∧
    B ++ A = (List.replicate N v ++ xs.map (· / (N : K))).drop xs.length
  fast : e.ema.fast = v + ((List.replicate N v ++ xs.map (· / (N : K))).drop xs.length).sum - N * v

theorem RingOK.new {N : Nat} (hN : 1 ≤ N) (v : K) (e : Ewa2 K) (h1 : e.pool = List.replicate N v) (h2 : e.last = 0) (h3 : e.ema.fast = v) :
    RingOK N v [] e := by
  refine ⟨⟨[], List.replicate N v, by simp [h1], by simp [h2], ?_, by simp, by simp⟩, ?_⟩
  · intro h; have := congrArg List.length h; simp at this; omega
  · simp [h3]

theorem RingOK.update {N : Nat} {v : K} {xs : List K} {e : Ewa2 K} (h : RingOK N v xs e) (x : K) : RingOK N v (xs ++ [x]) (e.update N x) := by
  obtain ⟨⟨A, B, h1, h2, h3, h4, h5⟩, h6⟩ := h
  obtain ⟨o, B, rfl⟩ := List.exists_cons_of_ne_nil h3
  set ys := List.replicate N v ++ xs.map (· / (N : K)) with hys
  have hlen : ys.length = N + xs.length := by simp [hys]
  have hd : (List.replicate N v ++ (xs ++ [x]).map (· / (N : K))).drop (xs ++ [x]).length = B ++ A ++ [x / (N : K)] := by
    rw [List.map_append, ← List.append_assoc, ← hys]
    simp only [List.length_append, List.length_singleton, List.map_cons, List.map_nil]
    rw [List.drop_append_of_le_length (by simp at h4; omega), ← List.drop_drop, ← h5]
    simp
  have hget : e.pool.getD e.last 0 = o := by rw [h1, h2]; simp
  have hset : e.pool.set e.last (x / (N : K)) = A ++ x / (N : K) :: B := by rw [h1, h2]; simp
  simp only [List.length_cons] at h4
  refine ⟨?_, ?_⟩
  · rw [hd]
    cases B with
    | nil =>
      refine ⟨[], A ++ [x / (N : K)], by simp [Ewa2.update, hset], ?_, by simp, by simp at h4 ⊢; omega, by simp⟩
      simp only [Ewa2.update, h2, List.length_nil]
      have : A.length + 1 = N := by simpa using h4
      rw [this]; simp
    | cons b B =>
      refine ⟨A ++ [x / (N : K)], b :: B, by simp [Ewa2.update, hset], ?_, by simp, by simp at h4 ⊢; omega, by simp⟩
      simp only [Ewa2.update, h2, List.length_append, List.length_singleton]
      rw [Nat.mod_eq_of_lt]; simp at h4; omega
  · rw [hd]
    simp only [Ewa2.update, hget, h6, ← h5, List.sum_append, List.sum_cons, List.sum_nil]
    ring

theorem RingOK.run {N : Nat} {v : K} : ∀ {ys xs : List K} {e : Ewa2 K}, RingOK N v xs e → RingOK N v (xs ++ ys) (ys.foldl (Ewa2.update N) e)
  | [], xs, e, h => by simpa using h
  | y :: ys, xs, e, h => by
    have := (h.update y).run (ys := ys)
    simpa using this

theorem sum_window (N : Nat) (xs : List K) :
    ((List.replicate N (0 : K) ++ xs.map (· / (N : K))).drop xs.length).sum = windowMean N xs := by
  unfold windowMean
  have hdiv : ∀ l : List K, (l.map (· / (N : K))).sum = l.sum / (N : K) := by
    intro l; induction l with
    | nil => simp
    | cons a l ih => simp [ih, add_div]
  rw [List.drop_append, List.drop_replicate, List.sum_append, List.length_replicate, ← List.map_drop, hdiv]
  simp

theorem sum_full (N : Nat) (v : K) (xs : List K) (h : N ≤ xs.length) :
    ((List.replicate N v ++ xs.map (· / (N : K))).drop xs.length).sum = windowMean N xs := by
  rw [← sum_window]
  rw [List.drop_append, List.drop_append, List.drop_replicate, List.drop_replicate, Nat.sub_eq_zero_of_le h]
  simp

theorem ewa_slow (N : Nat) (e : Ewa2 K) (hx : e.sx = 1 - e.se) (xs : List K) :
    (xs.foldl (Ewa2.update N) e).se = e.se ∧ (xs.foldl (Ewa2.update N) e).sx = e.sx ∧
      (xs.foldl (Ewa2.update N) e).ema.slow = expMean e.se e.ema.slow xs := by
  induction xs using List.reverseRecOn with
  | nil => simp [expMean_nil]
  | append_singleton xs x ih =>
    obtain ⟨h1, h2, h3⟩ := ih
    simp only [List.foldl_append, List.foldl_cons, List.foldl_nil, expMean_snoc, ← h3]
    simp only [Ewa2.update, h1, h2, hx, and_self]

/-- **C65**, `Ewa` and `Ewa2` started at 0 (as everywhere in the program): the fast value is the mean of the last `N` inputs,
the slow one an exponentially weighted average. -/
theorem C65_window (N : Nat) (hN : 1 ≤ N) (s : Nat) (xs : List K) :
    let e := xs.foldl (Ewa2.update N) ((Ewa2.new N 0).withSlow s)
    e.ema.fast = windowMean N xs ∧ e.ema.slow = expMean (1 / (s : K)) 0 xs := by
  have h := (RingOK.new hN (0 : K) ((Ewa2.new N 0).withSlow s) rfl rfl rfl).run (ys := xs)
  rw [List.nil_append] at h
  refine ⟨?_, (ewa_slow N ((Ewa2.new N (0 : K)).withSlow s) rfl xs).2.2⟩
  have := h.fast
  rw [sum_window] at this
  simpa using this

/-- **Finding**: started at another value `v`, the fast value is off by `(1 - N) v` from the mean of the last `N` inputs,
forever: the constructor fills the ring with `v` where the update expects `v / N`. -/
theorem C65_other_initial_value (N : Nat) (hN : 1 ≤ N) (v : K) (xs : List K) (h : N ≤ xs.length) :
    (xs.foldl (Ewa2.update N) (Ewa2.new N v)).ema.fast = windowMean N xs + (1 - N) * v := by
  have hr := (RingOK.new hN v (Ewa2.new N v) rfl rfl rfl).run (ys := xs)
  rw [List.nil_append] at hr
  rw [hr.fast, sum_full N v xs h]; ring

/-! ## The restart test -/

section
variable [LinearOrder K] [IsStrictOrderedRing K]

omit [LinearOrder K] [IsStrictOrderedRing K] in
theorem lbd_run (ds : List Nat) (p : ProgressLBD K) :
    (ds.foldl ProgressLBD.update p).ema = (ds.map fun (d : Nat) => (d : K)).foldl (Ewa2.update lbdEwaLen) p.ema ∧
      (ds.foldl ProgressLBD.update p).num = p.num + ds.length ∧ (ds.foldl ProgressLBD.update p).sum = p.sum + ds.sum := by
  induction ds generalizing p with
  | nil => simp
  | cons d ds ih =>
    obtain ⟨h1, h2, h3⟩ := ih (p.update d)
    refine ⟨h1, ?_, ?_⟩
    · rw [List.foldl_cons, h2, List.length_cons]; show p.num + 1 + ds.length = _; omega
    · rw [List.foldl_cons, h3, List.sum_cons]; show p.sum + d + ds.sum = _; omega

theorem expMean_pos (a : K) (h0 : 0 < a) (h1 : a < 1) (xs : List K) (h : ∀ x ∈ xs, 0 ≤ x) :
    0 ≤ expMean a 0 xs ∧ (expMean a 0 xs = 0 → ∀ x ∈ xs, x = 0) := by
  induction xs using List.reverseRecOn with
  | nil => simp [expMean_nil]
  | append_singleton xs x ih =>
    obtain ⟨i1, i2⟩ := ih fun y hy => h y (by simp [hy])
    have hx := h x (by simp)
    have e1 : 0 ≤ a * x := mul_nonneg h0.le hx
    have e2 : 0 ≤ (1 - a) * expMean a 0 xs := mul_nonneg (by linarith) i1
    rw [expMean_snoc]
    refine ⟨by linarith, fun he => ?_⟩
    have z1 : a * x = 0 := by linarith
    have z2 : (1 - a) * expMean a 0 xs = 0 := by linarith
    have z1' : x = 0 := by rcases mul_eq_zero.1 z1 with h | h; · exact absurd h h0.ne'
                           · exact h
    have z2' : expMean a 0 xs = 0 := by rcases mul_eq_zero.1 z2 with h | h; · linarith
                                        · exact h
    intro y hy
    rcases List.mem_append.1 hy with hy | hy
    · exact i2 z2' y hy
    · simp at hy; rw [hy, z1']

/-- **C65**: a restart is due exactly if the mean of the last 16 ranks exceeds `thr` times the long-term average (the ranks
since the start, the one `k` steps ago weighted `(1/8192)(8191/8192)^k`). No division by zero is involved. -/
theorem C65_restart_test (ds : List Nat) (thr : K) :
    (ds.foldl ProgressLBD.update (ProgressLBD.new : ProgressLBD K)).restartDue thr = true ↔
      thr * expMean (1 / 8192) 0 (ds.map fun (d : Nat) => (d : K)) < windowMean 16 (ds.map fun (d : Nat) => (d : K)) := by
  set xs := ds.map fun (d : Nat) => (d : K) with hxs
  have hw := C65_window (K := K) lbdEwaLen (by decide) lbdEwaSlow xs
  simp only [] at hw
  have hr := (lbd_run ds (ProgressLBD.new : ProgressLBD K)).1
  unfold ProgressLBD.restartDue EmaView.trendAbove
  rw [hr]
  have e1 : (((lbdEwaSlow : Nat) : K)) = 8192 := by norm_num [lbdEwaSlow]
  have hp := expMean_pos (1 / 8192 : K) (by norm_num) (by norm_num) xs (by
    intro x hx; rw [hxs] at hx; obtain ⟨d, -, rfl⟩ := List.mem_map.1 hx; positivity)
  change (if ((xs.foldl (Ewa2.update lbdEwaLen) ((Ewa2.new lbdEwaLen 0).withSlow lbdEwaSlow)).ema).slow = 0 then
    decide (0 < (xs.foldl (Ewa2.update lbdEwaLen) ((Ewa2.new lbdEwaLen 0).withSlow lbdEwaSlow)).ema.fast) else
    decide (thr < (xs.foldl (Ewa2.update lbdEwaLen) ((Ewa2.new lbdEwaLen 0).withSlow lbdEwaSlow)).ema.fast /
      (xs.foldl (Ewa2.update lbdEwaLen) ((Ewa2.new lbdEwaLen 0).withSlow lbdEwaSlow)).ema.slow)) = true ↔ _
  rw [hw.1, hw.2, e1]
  show _ ↔ thr * expMean (1 / 8192) 0 xs < windowMean lbdEwaLen xs
  split
  · rename_i h0
    rw [h0]; simp
  · rename_i h0
    have : 0 < expMean (1 / 8192 : K) 0 xs := lt_of_le_of_ne hp.1 (Ne.symm h0)
    rw [decide_eq_true_eq, lt_div_iff₀ this]

/-- **Finding**: the long-term average starts at 0 and is not corrected for it. As long as at most 16 ranks have been
recorded, not all 0, every threshold below 512 is exceeded: a restart is due after every conflict. -/
theorem C65_early_restarts (ds : List Nat) (hn : ds.length ≤ 16) (hp : ∃ d ∈ ds, d ≠ 0) (thr : K) (ht : thr < 512) :
    (ds.foldl ProgressLBD.update (ProgressLBD.new : ProgressLBD K)).restartDue thr = true := by
  rw [C65_restart_test]
  set xs := ds.map fun (d : Nat) => (d : K) with hxs
  have h0 : ∀ x ∈ xs, (0 : K) ≤ x := by
    intro x hx; rw [hxs] at hx; obtain ⟨d, -, rfl⟩ := List.mem_map.1 hx; positivity
  have hw : windowMean 16 xs = xs.sum / 16 := by
    unfold windowMean
    rw [show xs.length - 16 = 0 by rw [hxs, List.length_map]; omega]; simp
  have hb : ∀ ys : List K, (∀ x ∈ ys, (0 : K) ≤ x) → expMean (1 / 8192) 0 ys ≤ ys.sum / 8192 := by
    intro ys hy
    induction ys using List.reverseRecOn with
    | nil => simp [expMean_nil]
    | append_singleton ys x ih =>
      have i := ih fun y h => hy y (by simp [h])
      have p := (expMean_pos (1 / 8192 : K) (by norm_num) (by norm_num) ys fun y h => hy y (by simp [h])).1
      rw [expMean_snoc, List.sum_append, List.sum_singleton]
      linarith
  have hpos := expMean_pos (1 / 8192 : K) (by norm_num) (by norm_num) xs h0
  have hgt : 0 < expMean (1 / 8192 : K) 0 xs := by
    refine lt_of_le_of_ne hpos.1 fun h => ?_
    obtain ⟨d, hd, hd0⟩ := hp
    have := hpos.2 h.symm (d : K) (by rw [hxs]; exact List.mem_map.2 ⟨d, hd, rfl⟩)
    exact hd0 (by exact_mod_cast this)
  rw [hw]
  have h1 := hb xs h0
  have h2 := mul_lt_mul_of_pos_right ht hgt
  linarith
end

/-! ### Examples -/

/-- Four inputs in a window of three; an average of increments; the restart test of a real threshold. -/
example : (([3, 6, 9, 12] : List ℚ).foldl (Ewa2.update 3) ((Ewa2.new 3 0).withSlow 10)).ema.fast = 9 := by decide +kernel

example : (([3, 6, 9, 12] : List ℚ).foldl (Ewa2.update 3) (Ewa2.new 3 1)).ema.fast = 7 := by decide +kernel

example : (([5, 7, 12] : List Nat).foldl EmaSU.update (EmaSU.new 2 : EmaSU ℚ)).ema.get = 5 / 8 + 1 / 2 + 5 / 2 := by decide +kernel

/-- After 60 asserted literals a learnt clause of rank 3 makes the test fire; no longer after 16 more asserted literals. -/
example : ((List.replicate 60 0 ++ [3]).foldl ProgressLBD.update (ProgressLBD.new : ProgressLBD ℚ)).restartDue 2 = true ∧
    ((List.replicate 60 0 ++ [3] ++ List.replicate 16 0).foldl ProgressLBD.update (ProgressLBD.new : ProgressLBD ℚ)).restartDue 2 = false := by
  decide +kernel

end Splr
