import Verif.Model.Heur
import Verif.Props.C03_C11_Search
import Verif.Props.C65_Averages
/-!
# C67: the activities of the variables

`reward` of a variable is meant to be the rate at which it took part in conflicts: whenever the variable is unassigned, it moves
towards 1 if the variable was used in a conflict analysis since the last time, towards 0 otherwise
(src/assign/learning_rate.rs).
-/
namespace Splr
open Stk Avg

variable {K : Type} [Field K]

/-! ## Unassigning -/

/-- Specification: what an unassignment does to the activity of one variable. -/
def unassigned (decay anti r : K) (used : Bool) : K := decay * r + anti * (if used then 1 else 0)

theorem Act.unassigns (vs : List Nat) (hn : vs.Nodup) (a : Act K) (v : Nat) :
    (vs.foldl Act.unassign a).reward v = (if v ∈ vs then unassigned a.decay a.anti (a.reward v) (a.used v) else a.reward v) ∧
    (vs.foldl Act.unassign a).used v = (if v ∈ vs then false else a.used v) ∧
    (vs.foldl Act.unassign a).decay = a.decay ∧ (vs.foldl Act.unassign a).anti = a.anti := by
  induction vs generalizing a with
  | nil => simp
  | cons w vs ih =>
    rw [List.foldl_cons]
    obtain ⟨hw, hn⟩ := List.nodup_cons.1 hn
    obtain ⟨h1, h2, h3, h4⟩ := ih hn (a.unassign w)
    rw [h1, h2, h3, h4]
    by_cases e : v = w
    · subst e
      simp only [hw, if_false, List.mem_cons, true_or, if_true, Act.unassign, upd_apply, unassigned]
      refine ⟨?_, trivial, trivial, trivial⟩
      split <;> simp [mul_comm, *]
    · simp [e, Act.unassign, upd_apply]

theorem rewarded_perm {db : Cdb} {s : Stk} (hi : Inv db s) {lv : Nat} (hl : lv < s.dl) (h : lv + 2 ≤ s.dl ∨ s.dl = 1) :
    (s.rewarded lv).Perm ((s.trail.drop (s.lim.getD lv 0)).map Lit.var) := by
  unfold Stk.rewarded
  simp only []
  split
  · rename_i h2
    have h3 : lv + 2 ≤ s.dl := by omega
    have hle : s.lim.getD lv 0 ≤ s.lim.getD (s.dl - 2) 0 := by
      unfold Stk.dl at *
      rw [List.getD_eq_getElem?_getD, List.getD_eq_getElem?_getD, List.getElem?_eq_getElem (by omega), List.getElem?_eq_getElem (by omega)]
      simp only [Option.getD_some]
      rcases Nat.eq_or_lt_of_le (show lv ≤ s.lim.length - 2 by omega) with e | e
      · subst e; exact Nat.le_refl _
      · exact Nat.le_of_lt (List.pairwise_iff_getElem.1 hi.limInc _ _ _ _ e)
    refine List.Perm.map _ ?_
    have e1 : s.trail.drop (s.lim.getD (s.dl - 2) 0) = (s.trail.drop (s.lim.getD lv 0)).drop (s.lim.getD (s.dl - 2) 0 - s.lim.getD lv 0) := by
      rw [List.drop_drop]; congr 1; omega
    rw [e1]
    refine ((List.reverse_perm _).append_right _).trans ?_
    rw [List.take_append_drop]
  · exact .refl _

/-- The variables that `cancel_until(lv)` unassigns. -/
def Undone (s : Stk) (lv : Nat) (v : Nat) : Prop := s.assign v ≠ none ∧ ∀ low, (s.cancelUntil low lv).assign v = none

theorem undone_iff {db : Cdb} {s : Stk} (hi : Inv db s) {lv : Nat} (hl : lv < s.dl) (v : Nat) :
    Undone s lv v ↔ v ∈ (s.trail.drop (s.lim.getD lv 0)).map Lit.var := by
  unfold Undone
  constructor
  · rintro ⟨h1, h2⟩
    by_contra hc
    have := h2 noLow
    rw [(cancelUntil_cut hl).1.as] at this
    simp only [hc, if_false] at this
    exact h1 this
  · intro h
    refine ⟨?_, fun low => ?_⟩
    · obtain ⟨l, hl, rfl⟩ := List.mem_map.1 h
      exact tr_assigned (hi.tv l (List.mem_of_mem_drop hl))
    · rw [(cancelUntil_cut hl).1.as]; simp only [h, if_true]

/-- **C67** (partial): when the search goes back by at least two levels, or from level 1, exactly the variables that lose their
value get a new activity, once. Missing, and false: going back by one level (`C67_violated`). -/
theorem C67_once_per_unassignment_partial {cfg : Cfg} {F : Form} {db : Cdb} {s : Stk} (h : Visited cfg F db s) (a : Act K) (lv : Nat)
    (hl : lv < s.dl) (h2 : lv + 2 ≤ s.dl ∨ s.dl = 1) (v : Nat) :
    (Undone s lv v → (a.cancel s lv).reward v = unassigned a.decay a.anti (a.reward v) (a.used v) ∧ (a.cancel s lv).used v = false) ∧
    (¬ Undone s lv v → (a.cancel s lv).reward v = a.reward v ∧ (a.cancel s lv).used v = a.used v) := by
  have hi := h.inv.inv
  have hp := rewarded_perm hi hl h2
  have hn : (s.rewarded lv).Nodup := hp.nodup_iff.2 (hi.nd.sublist ((List.drop_sublist _ _).map _))
  obtain ⟨h3, h4, -⟩ := Act.unassigns _ hn a v
  have hc : a.cancel s lv = (s.rewarded lv).foldl Act.unassign a := by unfold Act.cancel; rw [if_neg (by omega)]
  rw [hc, h3, h4, undone_iff hi hl, ← hp.mem_iff]
  constructor <;> intro hm <;> simp [hm]

/-- Two decisions and a conflict. -/
def exPair : List (List Int) := [[-1, -2, 3], [-1, -2, -3], [1, 2, 3], [1, -2, 4]]

/-- **C67 is violated** when the search goes back by one level: after the conflict at level 2 the clause (¬2 ∨ ¬1) is learnt and
the search goes back to level 1. Variable 1 keeps its value, and yet its activity changes and its flag is cleared, so that its part in
this conflict is forgotten when it loses its value: `save_trail` starts at the decision of the last level but one
(src/assign/trail_saving.rs:23, 45-50). -/
theorem C67_violated : ∃ c : Conf, Conflict {} (exPair.map clsOf) c.1 c.2.1 c.2.2.1 c.2.2.2 ∧
    (conflictAnalyze c.1 c.2.1 c.2.2.1 c.2.2.2).map (fun x => (x.1, x.2.1)) = some ([⟨2, false⟩, ⟨1, false⟩], 1) ∧
    (∃ db s, handleConflict c.1 c.2.1 noLow none false c.2.2.1 c.2.2.2 = .ok db s ∧ Holds s ⟨1, true⟩ ∧ s.dl = 1) ∧ c.2.1.dl = 2 ∧
    ¬ Undone c.2.1 1 1 ∧ ∀ a : Act ℚ, a.anti = 1 - a.decay → a.decay < 1 → 0 < a.reward 1 → a.reward 1 < 1 →
      (a.cancel c.2.1 1).reward 1 ≠ a.reward 1 ∧ (a.cancel c.2.1 1).used 1 = false := by
  have h : (confOf {} plainPre [plainOrc] plainOrc (exSolver 4 exPair)).any (fun c =>
    decide ((conflictAnalyze c.1 c.2.1 c.2.2.1 c.2.2.2).map (fun x => (x.1, x.2.1)) = some ([⟨2, false⟩, ⟨1, false⟩], 1)) &&
    (match handleConflict c.1 c.2.1 noLow none false c.2.2.1 c.2.2.2 with | .ok _ s => decide (s.assign 1 = some true ∧ s.dl = 1) | _ => false) &&
    decide (c.2.1.dl = 2 ∧ c.2.1.assign 1 ≠ none ∧ (c.2.1.cancelUntil noLow 1).assign 1 ≠ none ∧ (c.2.1.rewarded 1).Nodup ∧ 1 ∈ c.2.1.rewarded 1)) = true := by
    decide +kernel
  obtain ⟨c, hc, h⟩ := (Option.any_eq_true _ _).1 h
  simp only [Bool.and_eq_true, decide_eq_true_eq] at h
  obtain ⟨⟨h1, h2⟩, h3, h4, h5, h6, h7⟩ := h
  have hcf := Conflict.of (exBuilt (by decide +kernel)) hc
  refine ⟨c, hcf, h1, ?_, h3, fun hu => h5 (hu.2 noLow), fun a ha hd h0 h1 => ?_⟩
  · split at h2
    · rename_i db s hs; exact ⟨db, s, hs, by simpa [Holds] using h2⟩
    · simp at h2
  · obtain ⟨e1, e2, -⟩ := Act.unassigns _ h6 a 1
    unfold Act.cancel; rw [if_neg (by omega), e1, e2, if_pos h7, if_pos h7]
    refine ⟨?_, rfl⟩
    unfold unassigned
    rw [ha]
    split
    · intro e; nlinarith
    · intro e; nlinarith

/-- The hypotheses are met with a jump from level 4 to level 2, in which four variables lose their values. -/
example : ∃ c : Conf, Visited {} (exDeep.map clsOf) c.1 c.2.1 ∧ c.2.1.dl = 4 ∧ Undone c.2.1 2 5 ∧ Undone c.2.1 2 3 ∧ ¬ Undone c.2.1 2 2 := by
  have h : exConf.any (fun c => decide (c.2.1.dl = 4 ∧ 5 ∈ (c.2.1.trail.drop (c.2.1.lim.getD 2 0)).map Lit.var ∧
    3 ∈ (c.2.1.trail.drop (c.2.1.lim.getD 2 0)).map Lit.var ∧ 2 ∉ (c.2.1.trail.drop (c.2.1.lim.getD 2 0)).map Lit.var)) = true := by decide +kernel
  obtain ⟨c, hc, h⟩ := (Option.any_eq_true _ _).1 h
  simp only [decide_eq_true_eq] at h
  have hv : Visited {} (exDeep.map clsOf) c.1 c.2.1 := .conflict (.of exDeep_built hc)
  have := hv.inv.inv
  refine ⟨c, hv, h.1, ?_, ?_, ?_⟩ <;> rw [undone_iff this (by omega)]
  exacts [h.2.1, h.2.2.1, h.2.2.2]

/-! ## The value -/

/-- **C67**: with a constant rate, the activity is the exponentially weighted average of the record of the variable: for every
unassignment a 1 if it was used, a 0 if not. -/
theorem C67_average (a : Act K) (ha : a.anti = 1 - a.decay) (v : Nat) (hu : a.used v = false) (bs : List Bool) :
    (bs.foldl (fun a b => (if b then a.mark v else a).unassign v) a).reward v = expMean a.anti (a.reward v) (bs.map fun b => if b then 1 else 0) := by
  have main : ∀ bs : List Bool, (bs.foldl (fun a b => (if b then a.mark v else a).unassign v) a).reward v =
        expMean a.anti (a.reward v) (bs.map fun b => if b then 1 else 0) ∧
      (bs.foldl (fun a b => (if b then a.mark v else a).unassign v) a).used v = false ∧
      (bs.foldl (fun a b => (if b then a.mark v else a).unassign v) a).decay = a.decay ∧
      (bs.foldl (fun a b => (if b then a.mark v else a).unassign v) a).anti = a.anti := by
    intro bs
    induction bs using List.reverseRecOn with
    | nil => simp [expMean_nil, hu]
    | append_singleton bs b ih =>
      obtain ⟨h1, h2, h3, h4⟩ := ih
      rw [List.map_append, List.map_singleton, expMean_snoc, ← h1, List.foldl_append]
      simp only [List.foldl_cons, List.foldl_nil]
      generalize bs.foldl _ a = x at *
      have hd : a.decay = 1 - a.anti := by rw [ha]; ring
      cases b
      · simp only [Bool.false_eq_true, if_false, Act.unassign, upd_apply, if_true, h2, h3, h4, and_self, and_true]
        rw [hd]; ring
      · simp only [if_true, Act.unassign, Act.mark, upd_apply, h3, h4, and_self, and_true]
        rw [hd]; ring
  exact (main bs).1

example : ([true, true, false].foldl (fun a b => (if b then a.mark 3 else a).unassign 3) (Act.new (9 / 10 : ℚ))).reward 3 = 171 / 1000 := by
  decide +kernel

/-- The decay rate in the `base`-th stage of a cycle. -/
theorem C67_decay_rate [LinearOrder K] [IsStrictOrderedRing K] (a : Act K) (base : Nat) :
    (a.setDecay base).decay = 1 - 1 / (20 + 2 * base) ∧ (a.setDecay base).anti = 1 / (20 + 2 * base) ∧
    (a.setDecay base).decay < (a.setDecay (base + 1)).decay := by
  have hb : (0 : K) ≤ base := Nat.cast_nonneg base
  have h1 : (20 + 2 * base : K) ≠ 0 := by positivity
  have h2 : (20 + 2 * (base + 1) : K) ≠ 0 := by positivity
  unfold Act.setDecay
  push_cast
  refine ⟨by field_simp, by field_simp; ring, ?_⟩
  rw [div_lt_div_iff₀ (by positivity) (by positivity)]
  nlinarith

/-- What an event must satisfy: the initial activity is the inverse of the fourth root of the number of variables. -/
def ActEv.ok [LinearOrder K] : ActEv K → Prop
  | .init _ nv act => 1 ≤ nv ∧ 0 ≤ act ∧ act ^ 4 * nv = 1
  | _ => True

/-- What holds of activities. -/
structure ActOK [LinearOrder K] (a : Act K) : Prop where
  r : ∀ v, 0 ≤ a.reward v ∧ a.reward v ≤ 1
  d : 0 ≤ a.decay ∧ a.decay ≤ 1
  a : a.anti = 1 - a.decay

variable [LinearOrder K] [IsStrictOrderedRing K]

theorem ActOK.unassign {a : Act K} (h : ActOK a) (v : Nat) : ActOK (a.unassign v) := by
  refine ⟨fun w => ?_, h.d, h.a⟩
  simp only [Act.unassign, upd_apply]
  split
  · have := h.r v
    have := h.d
    rw [h.a]
    split <;> constructor <;> nlinarith [mul_nonneg (h.r v).1 h.d.1, mul_le_mul (h.r v).2 h.d.2 h.d.1 (by norm_num : (0 : K) ≤ 1),
      mul_nonneg (sub_nonneg.2 (h.r v).2) h.d.1]
  · exact h.r w

theorem ActOK.step {a : Act K} (h : ActOK a) {e : ActEv K} (he : e.ok) : ActOK (a.step e) := by
  cases e with
  | mark v => exact ⟨h.r, h.d, h.a⟩
  | cancel s lv =>
    unfold Act.step Act.cancel
    simp only []
    split
    · exact h
    · generalize s.rewarded lv = vs
      induction vs generalizing a with
      | nil => exact h
      | cons v vs ih => exact ih (h.unassign v)
  | setDecay base =>
    have h1 := (C67_decay_rate a base).1
    have hb : (0 : K) ≤ base := Nat.cast_nonneg base
    have h2 : (0 : K) < 1 / (20 + 2 * base) := by positivity
    have h3 : (1 : K) / (20 + 2 * base) ≤ 1 := by rw [div_le_one (by positivity)]; linarith
    exact ⟨h.r, by unfold Act.step; rw [h1]; constructor <;> linarith, rfl⟩
  | clear v =>
    refine ⟨fun w => ?_, h.d, h.a⟩
    simp only [Act.step, Act.clear, upd_apply]
    split
    · norm_num
    · exact h.r w
  | init elim nv act =>
    obtain ⟨h1, h2, h3⟩ := he
    refine ⟨fun w => ?_, h.d, h.a⟩
    simp only [Act.step, Act.init]
    split
    · refine ⟨h2, ?_⟩
      by_contra hc
      have hc := lt_of_not_ge hc
      have h4 : (1 : K) < act ^ 4 := one_lt_pow₀ hc (by norm_num)
      have h5 : (1 : K) ≤ nv := by exact_mod_cast h1
      nlinarith
    · exact h.r w

/-- **C67**: an activity is always between 0 and 1, whatever happens, for any rate between 0 and 1 in the configuration. -/
theorem C67_bounds (rat : K) (hr : 0 ≤ rat ∧ rat ≤ 1) (evs : List (ActEv K)) (he : ∀ e ∈ evs, e.ok) (v : Nat) :
    0 ≤ (evs.foldl Act.step (Act.new rat)).reward v ∧ (evs.foldl Act.step (Act.new rat)).reward v ≤ 1 := by
  have h0 : ActOK (Act.new rat) := ⟨fun v => by simp [Act.new], hr, rfl⟩
  have : ActOK (evs.foldl Act.step (Act.new rat)) := by
    generalize Act.new rat = a at h0
    induction evs generalizing a with
    | nil => exact h0
    | cons e evs ih => exact ih (fun x hx => he x (by simp [hx])) (a.step e) (h0.step (he e (by simp)))
  exact this.r v

/-- 16 variables: the initial activity is 1/2. -/
example : ∀ e ∈ [ActEv.init (fun _ => false) 16 (1 / 2 : ℚ), .mark 3, .setDecay 0, .clear 5], e.ok := by
  simp [ActEv.ok]; norm_num

end Splr
