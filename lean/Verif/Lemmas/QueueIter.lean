import Verif.Lemmas.QueueConf
import Verif.Props.C66_Bounds
import Verif.Props.C52_Ends
/-! # An iteration of the main loop with the array queue and range checks -/
namespace Splr
open Stk QStk

theorem InBounds.rg {db : Cdb} {s : Stk} (h : InBounds db s) : Rg s.numVars db :=
  ⟨h.lits, fun p e he => ⟨⟨(h.watch p e.1 e.2 he).2.1.1, (h.watch p e.1 e.2 he).2.1.2.1⟩, (h.watch p e.1 e.2 he).2.2.2⟩,
    fun p e he => ⟨⟨(h.link p e.2 e.1 he).2.1.1, (h.link p e.2 e.1 he).2.1.2.1⟩, (h.link p e.2 e.1 he).2.2⟩⟩

theorem Gs.of {db : Cdb} {s : Stk} (h : InBounds db s) (hi : Inv db s) (hd : Dom db s) : Gs db s := by
  refine ⟨fun v hv => ⟨(hd.as v hv).1, (hd.as v hv).2.1⟩, fun v hv => Splr.Inv.level_le hi hv, fun v hv q hq => ?_, fun v cid hr => ?_, fun v m hr => ?_, fun v hv => ?_,
    h.rg, fun p e he => (h.link p e.2 e.1 he).2.1.2.2, h.level, fun l hl => tr_assigned (hi.tv l hl)⟩
  · by_cases hv2 : v ∈ s.trail.map Lit.var
    · obtain ⟨l, hl, rfl⟩ := List.mem_map.1 hv2
      obtain ⟨pre, post, e⟩ := List.append_of_mem hl
      obtain ⟨m, hm, hb⟩ := antecedent_before (hi.rs pre l post e) hq
      rw [← hm]
      exact tr_assigned hb.1
    · rw [hi.root v hv (hi.arch v hv hv2)] at hq
      simp [antecedents] at hq
  · have := h.reason v
    rw [hr] at this
    exact ⟨⟨this.1, this.2.1⟩, Nat.le_trans (by omega) this.2.2⟩
  · have := h.reason v
    rw [hr] at this
    exact this
  · by_cases hv2 : v ∈ s.trail.map Lit.var
    · obtain ⟨l, hl, rfl⟩ := List.mem_map.1 hv2
      obtain ⟨pre, post, e⟩ := List.append_of_mem hl
      intro hn
      have := hi.rs pre l post e
      unfold ReasonOK at this
      rw [hn] at this
      exact this
    · rw [hi.root v hv (hi.arch v hv hv2)]; simp

theorem propLoop_sim {cfg : Cfg} {F : Form} {q : Nat} : ∀ (n : Nat) {db : Cdb} {s : Stk} {x : QStk}, Propagating cfg F db s → QRel s x →
    PRel (propLoop q n db s) (propLoopQ q n db x)
  | 0, db, s, x, _, _ => .fuel
  | n + 1, db, s, x, h, hx => by
    have e1 : x.s.trail = s.trail := by rw [← hx.same]
    have e2 : x.s.qhead = s.qhead := by rw [← hx.same]
    have hb := C66_in_bounds (.propagating h)
    unfold propLoop propLoopQ
    rw [e1, e2]
    cases ht : s.trail[s.qhead]? with
    | none => exact .ok hx
    | some p =>
      simp only []
      obtain ⟨h1, -⟩ := propLit_sim (sandbox := false) (p := p) (db := db) (qhead_set hx (s.qhead + 1)) hb.rg (hx.dom.tr p (List.mem_of_getElem? ht))
      have hst := fun db' s' => Propagating.literal (db' := db') (s' := s') h ht
      revert h1 hst
      generalize propLit false p db _ = r
      generalize propLitQ false p db _ = r'
      intro h1 hst
      cases h1 with
      | @ok db1 s1 x1 h1 =>
        have hs1 := hst db1 s1 rfl
        simp only []
        have h2 := reuse_sim (db := db1) (q := q) h1 (fun l hl cid hr => by
          have := C66_saved_reasons hs1 l hl
          rw [hr] at this
          exact ⟨this.1, this.2.1⟩)
        have hst2 := fun db' s' => Propagating.reused (db' := db') (s' := s') (q := q) hs1
        revert h2 hst2
        generalize reuse db1 q s1 = r
        generalize reuseQ db1 q x1 = r'
        intro h2 hst2
        cases h2 with
        | @ok db2 s2 x2 h2 => exact propLoop_sim n (hst2 db2 s2 rfl) h2
        | conflict h2 => exact .conflict h2
        | panic => exact .panic
        | fuel => exact .fuel
      | conflict h1 => exact .conflict h1
      | panic => exact .panic
      | fuel => exact .fuel

theorem propagate_sim {cfg : Cfg} {F : Form} {q : Nat} {db : Cdb} {s : Stk} {x : QStk} (h : Decided cfg F db s) (hx : QRel s x) :
    PRel (propagate q db s) (QStk.propagateQ q db x) := by
  have h0 := Propagating.start h
  have h2 := reuse_sim (db := db) (q := q) hx (fun l hl cid hr => by
    have := C66_saved_reasons h0 l hl
    rw [hr] at this
    exact ⟨this.1, this.2.1⟩)
  have hst2 := fun db' s' => Propagating.reused (db' := db') (s' := s') (q := q) h0
  unfold propagate QStk.propagateQ
  revert h2 hst2
  generalize reuse db q s = r
  generalize reuseQ db q x = r'
  intro h2 hst2
  cases h2 with
  | @ok db2 s2 x2 h2 =>
    simp only []
    have : x2.s.propFuel = s2.propFuel := by rw [← h2.same]; rfl
    rw [this]
    exact propLoop_sim _ (hst2 db2 s2 rfl) h2
  | conflict h2 => exact .conflict h2
  | panic => exact .panic
  | fuel => exact .fuel

theorem conflict_sim {cfg : Cfg} {F : Form} {db : Cdb} {s : Stk} {x : QStk} {l : Lit} {r : Reason} (h : Conflict cfg F db s l r) (hx : QRel s x)
    (low : Nat → Bool) (rr : Option Nat) (drift : Bool) : HRel (handleConflict db s low rr drift l r) (handleConflictQ db x low rr drift l r) := by
  obtain ⟨p, d, hc, -⟩ := h.inv
  have g := Gs.of (C66_in_bounds (.conflict h)) p.inv d
  obtain ⟨-, hr⟩ := C66_conflicts h
  refine handleConflict_sim hx g low rr drift ?_ ?_ ?_
  · cases r with
    | binary m => exact tr_assigned (l := l.neg) hc.2.1
    | impl cid =>
      obtain ⟨⟨rest, e⟩, ha⟩ := hc
      exact tr_assigned (l := l.neg) (ha l (by rw [e]; simp))
    | none => exact hc.elim
    | decision k => exact hc.elim
  · intro q hq
    cases r with
    | binary m => simp only [antecedents, List.mem_singleton] at hq; subst hq; exact tr_assigned hc.2.2
    | impl cid =>
      simp only [antecedents] at hq
      exact tr_assigned (l := q.neg) (hc.2 q (List.mem_of_mem_drop hq))
    | none => exact hc.elim
    | decision k => exact hc.elim
  · rintro cid rfl
    exact ⟨hr.1, hr.2.1⟩

theorem selectVar_numVars {pick : List Nat → Nat} : ∀ (n : Nat) {s s' : Stk} {v : Nat}, selectVar pick n s = some (v, s') → s'.numVars = s.numVars
  | 0, s, s', v, e => by cases e
  | n + 1, s, s', v, e => by
    unfold selectVar at e
    have hr : ∀ w s1, s.heapRoot pick = some (w, s1) → s1.numVars = s.numVars := by
      intro w s1 e1
      unfold heapRoot at e1
      have hn : (if s.heap = [] then s.clearSaved else s).numVars = s.numVars := by split <;> rfl
      revert e1 hn
      generalize (if s.heap = [] then s.clearSaved else s) = t
      intro e1 hn
      simp only [] at e1
      split at e1
      · cases e1
      · cases e1; exact hn
    cases hk : s.heapRoot pick with
    | none => rw [hk] at e; cases e
    | some z =>
      obtain ⟨w, s1⟩ := z
      rw [hk] at e
      simp only [] at e
      split at e
      · cases e; exact hr _ _ hk
      · rw [selectVar_numVars n e, hr _ _ hk]

theorem decide_sim {cfg : Cfg} {F : Form} {y : Sol} {x : QStk} (h : Head cfg F y) (hr : y.s.running = true) (hx : QRel y.s x) (o : Orc) :
    ∃ pick s x', decideStep { o with pick := pick } y.s = some s ∧ x.decideStepQ o.phase = some x' ∧ QRel s x' := by
  have e1 : x.s.remains = y.s.remains := by rw [← hx.same]; rfl
  unfold decideStepQ decideStep
  rw [e1]
  by_cases hm : y.s.remains = true
  · exact ⟨o.pick, y.s, x, if_pos hm, if_pos hm, hx⟩
  · simp only [if_neg hm]
    obtain ⟨c1, -, -⟩ := C14_decisions h
    have hu : y.s.unassigned ≠ 0 := by
      unfold Stk.running at hr
      rw [Bool.not_eq_true] at hm
      rw [hm] at hr; simpa using hr
    obtain ⟨u, u1, u2, u3, u4⟩ := c1.1 hu
    obtain ⟨F', -, h1⟩ := h.sok
    obtain ⟨pick, v, s', z, k1, k2, k3, k4, k5, k6⟩ := select_sim hx (h1.heap u ⟨u1, u2, u4⟩ u3) ⟨u3, u4⟩
    refine ⟨pick, s'.assignDecision ⟨v, o.phase v⟩, { z with s := z.s.assignDecision ⟨v, o.phase v⟩ }, by simp only [k2], by rw [k1]; rfl, ?_⟩
    obtain ⟨hp, e⟩ := k3.of
    have hnv : s'.numVars = y.s.numVars := by
      exact selectVar_numVars _ k2
    refine k3.other (by rw [e]; rfl) rfl ?_ k3.dom.sv
    intro l hl
    simp only [Stk.assignDecision, List.mem_append, List.mem_singleton] at hl
    rcases hl with hl | rfl
    · exact k3.dom.tr l hl
    · exact ⟨k5, by rw [hnv]; exact k6⟩

/-- The results agree. -/
inductive IRel : Res Sol → IResQ → Prop
  | ok {y : Sol} {x : QStk} (h : QRel y.s x) : IRel (.ok y) (.ok y.db x)
  | unsat {db : Cdb} {s : Stk} {x : QStk} (h : QRel s x) : IRel (.unsat db s) (.unsat db x)
  | panic : IRel .panic .panic
  | fuel : IRel .fuel .fuel

theorem iteration_sim {cfg : Cfg} {F : Form} {y : Sol} {x : QStk} (h : Head cfg F y) (hr : y.s.running = true) (hx : QRel y.s x) (o : Orc)
    (ho : o.stage = none) : ∃ pick, IRel (searchStep cfg { o with pick := pick } y) (iterationQ o y.db x) := by
  obtain ⟨pick, s, x1, e1, e2, h1⟩ := decide_sim h hr hx o
  refine ⟨pick, ?_⟩
  have hd : Decided cfg F y.db s := .mk h hr e1
  unfold searchStep iterationQ
  rw [e1, e2]
  simp only []
  have hp := propagate_sim (q := o.q) hd h1
  have hcf := fun db' s' l r => Conflict.mk (db' := db') (s' := s') (l := l) (r := r) (q := o.q) hd
  revert hp hcf
  generalize propagate o.q y.db s = r
  generalize QStk.propagateQ o.q y.db x1 = r'
  intro hp hcf
  cases hp with
  | @ok db1 s1 x1 h1 => exact IRel.ok (y := { y with db := db1, s := s1 }) h1
  | panic => exact .panic
  | fuel => exact .fuel
  | @conflict db1 s1 x2 l r h2 =>
    have e3 : x2.s.dl = s1.dl := by rw [← h2.same]; rfl
    simp only []
    rw [e3]
    split
    · exact .unsat h2
    have hh := conflict_sim (hcf db1 s1 l r rfl) h2 o.low o.rr o.drift
    revert hh
    generalize handleConflict db1 s1 o.low o.rr o.drift l r = z
    generalize handleConflictQ db1 x2 o.low o.rr o.drift l r = z'
    intro hh
    cases hh with
    | panic => exact .panic
    | unsat h3 => exact .unsat h3
    | @ok db2 s2 x3 h3 =>
      simp only [afterConflict, ho]
      cases o.restart with
      | false => exact IRel.ok (y := { y with db := db2, s := s2 }) h3
      | true =>
        obtain ⟨x4, e4, h4⟩ := h3.cancelUntil o.low2 0
        simp only [if_true]
        rw [e4]
        exact IRel.ok (y := { y with db := db2, s := s2.restart o.low2 }) h4

end Splr
