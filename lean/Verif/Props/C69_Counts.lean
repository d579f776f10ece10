import Verif.Props.C66_Bounds
import Verif.Props.C68_Phases
/-!
# C69: the numbers of variables

The solver reports how many variables are asserted (determined for good), eliminated, still open, and in the "unreachable core"
(src/assign/mod.rs:222-247). The counters are unsigned: an underflow is a panic in a debug build and a huge number in a release
build.
-/
namespace Splr
open Stk

/-- src/assign/mod.rs:234-236 `NumUnassertedVar`; `none`: underflow -/
def Stk.unassertedVars (s : Stk) : Option Nat := if s.numAsserted + s.numElim ≤ s.numVars then some (s.numVars - s.numAsserted - s.numElim) else none

/-- src/assign/mod.rs:237-242 `NumUnassignedVar`; `none`: underflow -/
def Stk.unassignedVars (s : Stk) : Option Nat :=
  if s.numAsserted + s.numElim + s.trail.length ≤ s.numVars then some (s.numVars - s.numAsserted - s.numElim - s.trail.length) else none

/-- Specification: the number of variables of the problem with a property. -/
def howMany (s : Stk) (P : Nat → Bool) : Nat := ((List.range s.numVars).map (· + 1)).countP P

/-! ## The counters are right -/

theorem Decided.cnt {cfg : Cfg} {F : Form} {db : Cdb} {s : Stk} (h : Decided cfg F db s) : Cnt s := by
  obtain ⟨-, -, F', -, recs, g⟩ := h.inv
  exact g.cnt

theorem Propagating.cnt {cfg : Cfg} {F : Form} {db : Cdb} {s : Stk} (h : Propagating cfg F db s) : Cnt s := by
  induction h with
  | start h => exact h.cnt
  | @reused db db' s s' q h e ih =>
    have hg := reuse_good (q := q) h.pinv
    rw [e] at hg
    exact hg.sp.cnt ih
  | @literal db db' s s' p h hp e ih =>
    have st := advance_step (db := db) hp
    have hx := (st.all h.pinv).1
    have hp' : ({ s with qhead := s.qhead + 1 } : Stk).tr p := hx.inv.tv p (List.mem_of_getElem? hp)
    have hg := propLit_good PK.pinv (sandbox := false) hx hp'
    rw [e] at hg
    exact hg.sp.cnt (st.sp.cnt ih)

theorem Probe.cnt {cfg : Cfg} {F : Form} {db : Cdb} {s : Stk} (h : Probe cfg F db s) : Cnt s := by
  induction h with
  | start h => obtain ⟨-, F', -, recs, g⟩ := h.glob; exact g.cnt
  | @assign db s l _ hr hc hn ih => exact (SP.assignDecision hn).cnt ih
  | @ok db db' s s' h e ih =>
    have hg := propagateSandbox_good h.inv
    rw [e] at hg
    exact hg.sp.cnt ih
  | @conflict db db' s s' l r h e ih =>
    have hg := propagateSandbox_good h.inv
    rw [e] at hg
    exact hg.1.sp.cnt ih

theorem Visited.cnt {cfg : Cfg} {F : Form} {db : Cdb} {s : Stk} (h : Visited cfg F db s) : Cnt s := by
  cases h with
  | head h => obtain ⟨F', -, hs⟩ := h.sok; obtain ⟨recs, g, -⟩ := hs.glob; exact g.cnt
  | decided h => exact h.cnt
  | propagating h => exact h.cnt
  | @propagated db0 _ s0 _ q h e =>
    have hg := propagate_good (q := q) h.inv.1
    rw [e] at hg
    exact hg.sp.cnt h.cnt
  | conflict h => obtain ⟨-, -, -, F', -, recs, g⟩ := h.inv; exact g.cnt
  | @handled db0 _ s0 _ l r low rr drift h hd e =>
    have p := h.inv
    obtain ⟨-, -, -, F', -, recs, g⟩ := h.inv
    exact (handle_tr p.1 p.2.1 hd p.2.2.1 e).sp.cnt g.cnt
  | inner h => obtain ⟨-, F', -, recs, g⟩ := h.glob; exact g.cnt
  | probe h => exact h.cnt

theorem howMany_eq {s : Stk} {P : Nat → Bool} {l : List Nat} (hn : l.Nodup) (h : ∀ v, v ∈ l ↔ P v = true ∧ 1 ≤ v ∧ v ≤ s.numVars) :
    howMany s P = l.length := by
  unfold howMany
  rw [List.countP_eq_length_filter]
  refine (List.Perm.length_eq ?_)
  refine (List.perm_ext_iff_of_nodup ?_ hn).2 fun v => ?_
  · exact (List.nodup_range.map fun a b h => Nat.succ.inj h).filter _
  · rw [h, List.mem_filter, List.mem_map]
    constructor
    · rintro ⟨⟨k, hk, rfl⟩, hp⟩; rw [List.mem_range] at hk; exact ⟨hp, by omega, by omega⟩
    · rintro ⟨hp, h1, h2⟩; exact ⟨⟨v - 1, List.mem_range.2 (by omega), by omega⟩, hp⟩

theorem howMany_add (s : Stk) (P Q : Nat → Bool) (h : ∀ v, 1 ≤ v → v ≤ s.numVars → ¬ (P v = true ∧ Q v = true)) :
    howMany s P + howMany s Q = howMany s fun v => P v || Q v := by
  unfold howMany
  have : ∀ v ∈ (List.range s.numVars).map (· + 1), ¬ (P v = true ∧ Q v = true) := by
    intro v hv
    obtain ⟨k, hk, rfl⟩ := List.mem_map.1 hv
    rw [List.mem_range] at hk
    exact h _ (by omega) (by omega)
  generalize (List.range s.numVars).map (· + 1) = l at this
  induction l with
  | nil => simp
  | cons v l ih =>
    have h1 := ih fun w hw => this w (by simp [hw])
    have h2 := this v (by simp)
    simp only [List.countP_cons]
    cases hp : P v <;> cases hq : Q v <;> simp_all <;> omega

theorem howMany_not (s : Stk) (P : Nat → Bool) : howMany s P + (howMany s fun v => !P v) = s.numVars := by
  rw [howMany_add s P _ (by intro v _ _; cases P v <;> simp)]
  unfold howMany
  simp

/-- **C69**: in every state, the counter of eliminated variables is the number of eliminated variables, the counter of asserted
variables that of the variables with a value that have been taken off the trail; the other two are what remains, and they do not
underflow. -/
theorem C69_counts {cfg : Cfg} {F : Form} {db : Cdb} {s : Stk} (h : Visited cfg F db s) :
    s.numElim = howMany s s.elim ∧
    s.numAsserted = howMany s (fun v => decide (s.assign v ≠ none ∧ v ∉ s.trail.map Lit.var)) ∧
    s.unassertedVars = some (howMany s fun v => decide (s.elim v = false ∧ (s.assign v = none ∨ v ∈ s.trail.map Lit.var))) ∧
    s.unassignedVars = some (howMany s fun v => decide (s.elim v = false ∧ s.assign v = none)) := by
  obtain ⟨A, E, hA, hAl, hAm, hE, hEl, hEm⟩ := h.cnt
  have hd := h.bi.dom
  have hi := h.inv.inv
  have e1 : howMany s s.elim = s.numElim := by rw [← hEl]; exact howMany_eq hE hEm
  have e2 : howMany s (fun v => decide (s.assign v ≠ none ∧ v ∉ s.trail.map Lit.var)) = s.numAsserted := by
    rw [← hAl]
    refine howMany_eq hA fun v => ?_
    rw [hAm, decide_eq_true_eq]
    exact ⟨fun h => ⟨h, (hd.as v h.1).1, (hd.as v h.1).2.1⟩, fun h => h.1⟩
  have e3 : howMany s (fun v => decide (v ∈ s.trail.map Lit.var)) = s.trail.length := by
    rw [← List.length_map (f := Lit.var)]
    refine howMany_eq hi.nd fun v => ?_
    rw [decide_eq_true_eq]
    refine ⟨fun h => ?_, fun h => h.1⟩
    obtain ⟨l, hl, rfl⟩ := List.mem_map.1 h
    have := hd.as l.var (tr_assigned (hi.tv l hl))
    exact ⟨h, this.1, this.2.1⟩
  have htr : ∀ v, v ∈ s.trail.map Lit.var → s.assign v ≠ none := by
    intro v hv
    obtain ⟨l, hl, rfl⟩ := List.mem_map.1 hv
    exact tr_assigned (hi.tv l hl)
  have hel : ∀ v, s.assign v ≠ none → s.elim v = false := fun v hv => (hd.as v hv).2.2
  have s1 := howMany_add s s.elim (fun v => decide (s.assign v ≠ none ∧ v ∉ s.trail.map Lit.var)) (by
    rintro v _ _ ⟨h1, h2⟩
    rw [decide_eq_true_eq] at h2
    rw [hel v h2.1] at h1
    simp at h1)
  have s2 := howMany_add s (fun v => s.elim v || decide (s.assign v ≠ none ∧ v ∉ s.trail.map Lit.var)) (fun v => decide (v ∈ s.trail.map Lit.var)) (by
    rintro v _ _ ⟨h1, h2⟩
    rw [decide_eq_true_eq] at h2
    rw [Bool.or_eq_true, decide_eq_true_eq, hel v (htr v h2)] at h1
    simp only [Bool.false_eq_true, false_or] at h1
    exact h1.2 h2)
  have n1 := howMany_not s (fun v => s.elim v || decide (s.assign v ≠ none ∧ v ∉ s.trail.map Lit.var))
  have n2 := howMany_not s (fun v => (s.elim v || decide (s.assign v ≠ none ∧ v ∉ s.trail.map Lit.var)) || decide (v ∈ s.trail.map Lit.var))
  have c1 : (fun v => !(s.elim v || decide (s.assign v ≠ none ∧ v ∉ s.trail.map Lit.var))) =
      fun v => decide (s.elim v = false ∧ (s.assign v = none ∨ v ∈ s.trail.map Lit.var)) := by
    funext v
    rw [Bool.eq_iff_iff]
    simp only [Bool.not_eq_true', Bool.or_eq_false_iff, decide_eq_false_iff_not, decide_eq_true_eq]
    tauto
  have c2 : (fun v => !((s.elim v || decide (s.assign v ≠ none ∧ v ∉ s.trail.map Lit.var)) || decide (v ∈ s.trail.map Lit.var))) =
      fun v => decide (s.elim v = false ∧ s.assign v = none) := by
    funext v
    rw [Bool.eq_iff_iff]
    simp only [Bool.not_eq_true', Bool.or_eq_false_iff, decide_eq_false_iff_not, decide_eq_true_eq]
    have := htr v
    tauto
  rw [c1, ← s1, e1, e2] at n1
  rw [c2, ← s2, ← s1, e1, e2, e3] at n2
  refine ⟨e1.symm, e2.symm, ?_, ?_⟩
  · unfold Stk.unassertedVars
    rw [if_pos (by omega)]
    congr 1; omega
  · unfold Stk.unassignedVars
    rw [if_pos (by omega)]
    congr 1; omega

/-! ## The unreachable core -/

/-- What happens to the phases and the record. -/
inductive PhEv
  | propagated (s : Stk)
  | cancel (s : Stk) (lv : Nat)
  | rephase (s : Stk)
  | asserted (s : Stk) (v : Nat)
  | preset (v : Nat) (b : Bool)

/-- The state of the solver at an event. -/
def PhEv.at? : PhEv → Option Stk
  | .propagated s => some s
  | .cancel s _ => some s
  | .rephase s => some s
  | .asserted s _ => some s
  | .preset _ _ => none

/-- One event. -/
def Ph.step (p : Ph) : PhEv → Ph
  | .propagated s => p.propagated s
  | .cancel s lv => p.cancel s lv
  | .rephase s => p.rephase s
  | .asserted s v => p.asserted s v
  | .preset v b => p.preset v b

/-- **C69**: the record of the number of assigned variables never exceeds the number of variables, so the "unreachable core" does not
underflow: for every sequence of events in visited states of a problem with `n` variables. -/
theorem C69_unreachable_core {cfg : Cfg} {F : Form} {n : Nat} (evs : List PhEv)
    (he : ∀ e ∈ evs, ∀ s, e.at? = some s → s.numVars = n ∧ ∃ db, Visited cfg F db s) (s : Stk) (hs : s.numVars = n) :
    ∃ k, (evs.foldl Ph.step Ph.new).unreachable s = some k ∧ k + (evs.foldl Ph.step Ph.new).numBest = n := by
  have main : ∀ (evs : List PhEv) (p : Ph), (∀ e ∈ evs, ∀ s, e.at? = some s → s.numVars = n ∧ ∃ db, Visited cfg F db s) → p.numBest ≤ n →
      (evs.foldl Ph.step p).numBest ≤ n := by
    intro evs
    induction evs with
    | nil => exact fun p _ h => h
    | cons e evs ih =>
      intro p he hp
      refine ih (p.step e) (fun x hx => he x (by simp [hx])) ?_
      have h0 := he e (by simp)
      have key : ∀ s, s.numVars = n ∧ (∃ db, Visited cfg F db s) → s.qhead + s.numElim + s.numAsserted ≤ n ∧ s.numAsserted + s.numElim ≤ n := by
        rintro s ⟨hn, db, hv⟩
        have h1 := (C69_counts hv).2.2.2
        have h2 := hv.inv.inv.qh
        unfold Stk.unassignedVars at h1
        split at h1
        · omega
        · simp at h1
      cases e with
      | propagated s =>
        have := key s (h0 s rfl)
        simp only [Ph.step, Ph.propagated]; split
        · exact this.1
        · exact hp
      | cancel s lv =>
        simp only [Ph.step, Ph.cancel]; split
        · exact hp
        · simp only []; split <;> exact hp
      | rephase s =>
        have := (key s (h0 s rfl)).2
        have hc : (p.check s).numBest ≤ n := by unfold Ph.check; split <;> assumption
        simp only [Ph.step, Ph.rephase]; split
        · exact hp
        · split <;> exact hc
      | asserted s v =>
        have := (key s (h0 s rfl)).2
        simp only [Ph.step, Ph.asserted]; split
        · split <;> assumption
        · exact hp
      | preset v b => exact hp
  have := main evs Ph.new he (Nat.zero_le _)
  refine ⟨n - (evs.foldl Ph.step Ph.new).numBest, ?_, by omega⟩
  unfold Ph.unreachable
  rw [hs, if_pos this]

/-- A history: a decision without a conflict, then a conflict, after which the search goes back. Two variables of four are the record. -/
example : ∃ (d : DS) (c : Conf), Visited {} (exPair.map clsOf) d.1 d.2 ∧ Visited {} (exPair.map clsOf) c.1 c.2.1 ∧ d.2.numVars = 4 ∧ c.2.1.numVars = 4 ∧
    ([PhEv.propagated d.2, .cancel c.2.1 1].foldl Ph.step Ph.new).unreachable c.2.1 = some 2 ∧ c.2.1.unassignedVars = some 0 := by
  have h : (propOf {} plainPre [] plainOrc (exSolver 4 exPair)).any (fun d => (confOf {} plainPre [plainOrc] plainOrc (exSolver 4 exPair)).any fun c =>
    decide (d.2.numVars = 4 ∧ c.2.1.numVars = 4 ∧ ([PhEv.propagated d.2, .cancel c.2.1 1].foldl Ph.step Ph.new).unreachable c.2.1 = some 2 ∧
      c.2.1.unassignedVars = some 0)) = true := by decide +kernel
  obtain ⟨d, hd, h⟩ := (Option.any_eq_true _ _).1 h
  obtain ⟨c, hc, h⟩ := (Option.any_eq_true _ _).1 h
  rw [decide_eq_true_eq] at h
  exact ⟨d, c, .ofProp (exBuilt (by decide +kernel)) hd, .conflict (.of (exBuilt (by decide +kernel)) hc), h⟩

end Splr
