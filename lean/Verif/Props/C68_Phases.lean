import Verif.Props.C67_Activity
/-!
# C68: phases

A decision gives a variable the value of its phase. Phases are saved when the search goes back; at the end of a stage they are
set to the best assignment seen (`rephase`).
-/
namespace Splr
open Stk

/-- **C68**: going back from any state of the search, every variable that loses its value keeps it as its phase, and no other phase
changes. -/
theorem C68_phase_saving {cfg : Cfg} {F : Form} {db : Cdb} {s : Stk} (h : Visited cfg F db s) (p : Ph) (lv : Nat) (hl : lv < s.dl) (v : Nat) :
    (∀ b, Undone s lv v → s.assign v = some b → (p.cancel s lv).phase v = b) ∧ (¬ Undone s lv v → (p.cancel s lv).phase v = p.phase v) := by
  have hi := h.inv.inv
  have e1 : ∀ w, (if p.bestAssign then { p.save s with bestAssign := false } else p).phase w = p.phase w := by intro w; split <;> rfl
  rw [undone_iff hi hl]
  unfold Ph.cancel
  rw [if_neg (by omega)]
  constructor
  · intro b hm hb
    simp only [hm, if_true, hb, Option.getD_some]
  · intro hm
    simp only [hm, if_false, e1]

/-- The hypotheses are met: going back from level 4 to level 2, variables 5 and 8 lose the values true and false. -/
example : ∃ c : Conf, Visited {} (exDeep.map clsOf) c.1 c.2.1 ∧ 2 < c.2.1.dl ∧ Undone c.2.1 2 5 ∧ c.2.1.assign 5 = some true ∧
    Undone c.2.1 2 8 ∧ c.2.1.assign 8 = some false ∧ ¬ Undone c.2.1 2 2 := by
  have h : exConf.any (fun c => decide (2 < c.2.1.dl ∧ 5 ∈ (c.2.1.trail.drop (c.2.1.lim.getD 2 0)).map Lit.var ∧ c.2.1.assign 5 = some true ∧
    8 ∈ (c.2.1.trail.drop (c.2.1.lim.getD 2 0)).map Lit.var ∧ c.2.1.assign 8 = some false ∧
    2 ∉ (c.2.1.trail.drop (c.2.1.lim.getD 2 0)).map Lit.var)) = true := by decide +kernel
  obtain ⟨c, hc, h⟩ := (Option.any_eq_true _ _).1 h
  simp only [decide_eq_true_eq] at h
  obtain ⟨h1, h2, h3, h4, h5, h6⟩ := h
  have hv : Visited {} (exDeep.map clsOf) c.1 c.2.1 := .conflict (.of exDeep_built hc)
  have := hv.inv.inv
  refine ⟨c, hv, h1, ?_, h3, ?_, h5, ?_⟩ <;> rw [undone_iff this h1]
  exacts [h2, h4, h6]

/-- **C68**: the snapshot taken when the search goes back from a record is the current assignment without the facts. -/
theorem C68_snapshot {cfg : Cfg} {F : Form} {db : Cdb} {s : Stk} (h : Visited cfg F db s) (p : Ph) (hp : p.bestAssign = true) (lv : Nat)
    (hl : lv < s.dl) : ((p.cancel s lv).best.map Prod.fst).Nodup ∧ (p.cancel s lv).bestAssign = false ∧
    ∀ v b, (v, b) ∈ (p.cancel s lv).best ↔ s.assign v = some b ∧ s.level v ≠ 0 := by
  have hi := h.inv.inv
  have e : (p.cancel s lv).best = (s.trail.drop s.lenUpto0).filterMap fun l => (s.assign l.var).map fun b => (l.var, b) := by
    unfold Ph.cancel; rw [if_neg (by omega)]; simp [hp, Ph.save]
  have e2 : (p.cancel s lv).bestAssign = false := by unfold Ph.cancel; rw [if_neg (by omega)]; simp [hp]
  have ht : ∀ l ∈ s.trail, s.assign l.var = some l.pos := fun l hl => hi.tv l hl
  have e3 : (p.cancel s lv).best = (s.trail.drop s.lenUpto0).map fun l => (l.var, l.pos) := by
    rw [e, ← List.filterMap_eq_map']
    refine List.filterMap_congr fun l hl => ?_
    simp [ht l (List.mem_of_mem_drop hl)]
  have hk : ∃ k ks, s.lim = k :: ks := by
    cases hlm : s.lim with
    | nil => unfold Stk.dl at hl; rw [hlm] at hl; simp at hl
    | cons k ks => exact ⟨k, ks, rfl⟩
  obtain ⟨k, ks, hk⟩ := hk
  have hu : s.lenUpto0 = k := by unfold Stk.lenUpto0; rw [hk]
  have hmin : ∀ j ∈ s.lim, k ≤ j := by
    intro j hj
    have := hi.limInc
    rw [hk] at hj this
    rcases List.mem_cons.1 hj with rfl | hj
    · exact Nat.le_refl _
    · exact Nat.le_of_lt ((List.pairwise_cons.1 this).1 j hj)
  refine ⟨?_, e2, fun v b => ?_⟩
  · rw [e3, List.map_map]
    exact hi.nd.sublist ((List.drop_sublist _ _).map _)
  · rw [e3, hu]
    simp only [List.mem_map, Prod.mk.injEq]
    constructor
    · rintro ⟨l, hl, rfl, rfl⟩
      refine ⟨ht l (List.mem_of_mem_drop hl), ?_⟩
      obtain ⟨pre, post, e4⟩ := List.append_of_mem hl
      have e5 : s.trail = (s.trail.take k ++ pre) ++ l :: post := by rw [List.append_assoc, ← e4, List.take_append_drop]
      rw [hi.lev _ _ _ e5]
      have hkl := hi.limLt k (by rw [hk]; simp)
      have : 0 < s.lim.countP (· ≤ (s.trail.take k ++ pre).length) := by
        rw [List.countP_pos_iff]
        refine ⟨k, by rw [hk]; simp, ?_⟩
        simp; omega
      omega
    · rintro ⟨hb, hlev⟩
      have hvt : v ∈ s.trail.map Lit.var := by
        by_contra hc
        exact hlev (hi.arch v (by rw [hb]; simp) hc)
      obtain ⟨l, hl, rfl⟩ := List.mem_map.1 hvt
      have hlb := ht l hl
      rw [hb] at hlb
      refine ⟨l, ?_, rfl, by simpa using hlb.symm⟩
      rw [← List.take_append_drop k s.trail] at hl
      rcases List.mem_append.1 hl with hl | hl
      · exfalso
        obtain ⟨pre, post, e4⟩ := List.append_of_mem hl
        have e5 : s.trail = pre ++ l :: (post ++ s.trail.drop k) := by
          conv_lhs => rw [← List.take_append_drop k s.trail, e4]
          simp
        apply hlev
        rw [hi.lev _ _ _ e5, List.countP_eq_zero]
        intro j hj
        have h1 := hmin j hj
        have h2 : (s.trail.take k).length ≤ k := by simp
        rw [e4] at h2
        simp at h2 ⊢
        omega
      · exact hl

/-- The state after `propagate` of the decision in an iteration of the main loop, if there is no conflict. -/
def propOf (cfg : Cfg) (p : Pre) (os : List Orc) (o : Orc) (x : Sol) : Option DS :=
  (headOf cfg p os x).bind fun y => (decideStep o y.s).bind fun s =>
    match Stk.propagate o.q y.db s with
    | .ok db s => some (db, s)
    | _ => none

theorem Visited.ofProp {cfg : Cfg} {F : Form} {p : Pre} {os : List Orc} {o : Orc} {x : Sol} {d : DS} (hb : Built F x)
    (h : propOf cfg p os o x = some d) : Visited cfg F d.1 d.2 := by
  unfold propOf at h
  obtain ⟨y, hy, h⟩ := Option.bind_eq_some_iff.1 h
  obtain ⟨s, hs, h⟩ := Option.bind_eq_some_iff.1 h
  obtain ⟨hh, hr⟩ := Head.of hb hy
  split at h
  · rename_i db s' e
    cases h
    exact .propagated (.mk hh hr hs) e
  · simp at h

/-- **C68**, a limit of it: the record is noted after a propagation without a conflict, but the snapshot is taken when the search goes
back, that is after the next conflict. So the "best phases" can contain a falsified clause: here the first decision is a record, the
second one a conflict, and the snapshot falsifies ¬1 ∨ ¬2 ∨ ¬3 or ¬1 ∨ ¬2 ∨ 3. -/
theorem C68_snapshot_falsifies : ∃ (d : DS) (c : Conf), Visited {} (exPair.map clsOf) d.1 d.2 ∧ Conflict {} (exPair.map clsOf) c.1 c.2.1 c.2.2.1 c.2.2.2 ∧
    (Ph.new.propagated d.2).bestAssign = true ∧ ∃ k ∈ exPair.map clsOf, ∀ l ∈ k, (l.var, !l.pos) ∈ ((Ph.new.propagated d.2).cancel c.2.1 1).best := by
  have h : (propOf {} plainPre [] plainOrc (exSolver 4 exPair)).any (fun d => (confOf {} plainPre [plainOrc] plainOrc (exSolver 4 exPair)).any fun c =>
    (Ph.new.propagated d.2).bestAssign && (exPair.map clsOf).any fun k => k.all fun l =>
      decide ((l.var, !l.pos) ∈ ((Ph.new.propagated d.2).cancel c.2.1 1).best)) = true := by decide +kernel
  obtain ⟨d, hd, h⟩ := (Option.any_eq_true _ _).1 h
  obtain ⟨c, hc, h⟩ := (Option.any_eq_true _ _).1 h
  rw [Bool.and_eq_true, List.any_eq_true] at h
  obtain ⟨h1, k, hk, h2⟩ := h
  rw [List.all_eq_true] at h2
  exact ⟨d, c, .ofProp (exBuilt (by decide +kernel)) hd, .of (exBuilt (by decide +kernel)) hc, h1, k, hk, fun l hl => by simpa using h2 l hl⟩

/-- **C68**: rephasing at any state either drops the snapshot, changing no phase, or sets the phases of the snapshot and no
others; in the latter case the snapshot contradicts no assigned variable. -/
theorem C68_rephase (p : Ph) (s : Stk) (hn : (p.best.map Prod.fst).Nodup) :
    ((p.rephase s).best = [] ∧ (p.rephase s).phase = p.phase) ∨
    ((p.rephase s).best = p.best ∧ (∀ v b, (v, b) ∈ p.best → (p.rephase s).phase v = b ∧ s.assign v ≠ some !b) ∧
      ∀ v, (∀ b, (v, b) ∉ p.best) → (p.rephase s).phase v = p.phase v) := by
  have hlk : ∀ {ps : List (Nat × Bool)}, (ps.map Prod.fst).Nodup → ∀ v b, (v, b) ∈ ps → ps.lookup v = some b := by
    intro ps
    induction ps with
    | nil => simp
    | cons e ps ih =>
      intro hn v b hm
      obtain ⟨w, c⟩ := e
      rw [List.map_cons, List.nodup_cons] at hn
      rcases List.mem_cons.1 hm with h | h
      · cases h; simp [List.lookup]
      · have : v ≠ w := by rintro rfl; exact hn.1 (List.mem_map.2 ⟨_, h, rfl⟩)
        rw [List.lookup_cons]
        rw [beq_false_of_ne this]
        exact ih hn.2 v b h
  have hln : ∀ {ps : List (Nat × Bool)}, ∀ v, (∀ b, (v, b) ∉ ps) → ps.lookup v = none := by
    intro ps v h
    rw [List.lookup_eq_none_iff]
    rintro ⟨w, c⟩ hm
    rw [bne_iff_ne]
    rintro rfl
    exact h c hm
  unfold Ph.rephase
  split
  · rename_i h; exact .inl ⟨h, rfl⟩
  · simp only []
    by_cases hc : p.best.any (fun e => decide (s.assign e.1 = some !e.2)) = true
    · have e1 : p.check s = { p with best := [], numBest := s.numAsserted + s.numElim } := by unfold Ph.check; rw [if_pos hc]
      rw [e1]
      split
      · exact .inl ⟨rfl, rfl⟩
      · left; simp [List.lookup]
    · have e1 : p.check s = p := by unfold Ph.check; rw [if_neg hc]
      rw [e1]
      split
      · exact .inl ⟨rfl, rfl⟩
      · refine .inr ⟨rfl, fun v b hm => ⟨?_, fun ha => hc ?_⟩, fun v hv => ?_⟩
        · simp only []; rw [hlk hn v b hm]; rfl
        · rw [List.any_eq_true]; exact ⟨(v, b), hm, by simpa using ha⟩
        · simp only []; rw [hln v hv]; rfl

/-- Both cases occur: with a snapshot of two out of five variables; when variable 2 has got the other value. -/
example : let p : Ph := { phase := fun _ => false, best := [(2, true), (3, false)], bestAssign := false, numBest := 2 }
    (p.rephase (Stk.new 5)).phase 2 = true ∧ (p.rephase (Stk.new 5)).best = p.best ∧
    (p.rephase { Stk.new 5 with assign := fun v => if v = 2 then some false else none }).best = [] := by decide +kernel

end Splr
