import Verif.Lemmas.QueueVivify
import Verif.Lemmas.QueueSolve
/-! The solver with its own choices and the array queue: the callers of the eliminator, the ends of stages, the main loop. -/
namespace Splr
open Stk QStk Heap Stage

/-! ## `prepare` -/

theorem linkLoopQ_heap {p : Lims} {h : List Nat} : ∀ {ids : List Nat} {db : Cdb} {s : Stk} {e : El} {q : Queues} {db1 : Cdb} {s1 : Stk} {e1 : El} {q1 : Queues},
    linkLoopQ p ids (((db, s), e), q) = .ok (((db1, s1), e1), q1) →
    s1 = s ∧ linkLoopQ p ids (((db, { s with heap := h }), e), q) = .ok (((db1, { s with heap := h }), e1), q1)
  | [], _, _, _, _, _, _, _, _, hh => by unfold linkLoopQ at hh; cases hh; exact ⟨rfl, rfl⟩
  | cid :: ids, db, s, e, q, db1, s1, e1, q1, hh => by
    unfold linkLoopQ at hh ⊢
    simp only [] at hh ⊢
    split at hh
    · rename_i hd
      rw [if_pos hd]
      exact linkLoopQ_heap hh
    · rename_i hd
      rw [if_neg hd]
      have hnl : ¬ (db.clause cid).occurLinked = true := fun hl => hd (by rw [hl]; simp)
      unfold addCidQ at hh ⊢
      simp only [if_neg hnl] at hh ⊢
      cases ha : addLitsQ p s.elim cid (db.clause cid).lits e q with
      | ok w =>
        rw [ha] at hh
        simp only [Res.bind] at hh ⊢
        exact linkLoopQ_heap hh
      | _ => rw [ha] at hh; cases hh

theorem enqLoop_heap {p : Lims} {up : Bool} {s : Stk} {h : List Nat} {e : El} : ∀ {vs : List Nat} {q : Queues},
    enqLoop p up { s with heap := h } e vs q = enqLoop p up s e vs q
  | [], _ => rfl
  | v :: vs, q => by
    unfold enqLoop
    simp only []
    split
    · exact enqLoop_heap
    · cases enqVar p e q v up with
      | ok q1 => exact enqLoop_heap
      | _ => rfl

theorem prepareQ_heap {p : Lims} {flags : Nat → Bool} {h : List Nat} {db : Cdb} {s : Stk} {db1 : Cdb} {s1 : Stk} {e1 : El} {q1 : Queues}
    (hh : prepareQ p flags (db, s) = .ok (((db1, s1), e1), q1)) :
    s1 = s ∧ prepareQ p flags (db, { s with heap := h }) = .ok (((db1, { s with heap := h }), e1), q1) := by
  unfold prepareQ at hh ⊢
  obtain ⟨⟨⟨⟨db2, s2⟩, e2⟩, q2⟩, k1, k2⟩ := Res.bind_ok hh
  obtain ⟨rfl, k3⟩ := linkLoopQ_heap (h := h) k1
  obtain ⟨q3, k4, k5⟩ := Res.bind_ok k2
  cases k5
  simp only [] at k3 ⊢
  rw [k3]
  simp only [Res.bind] at k4 ⊢
  rw [enqLoop_heap, k4]
  exact ⟨trivial, rfl⟩

theorem prepare_simA {p : Lims} {flags : Nat → Bool} {x : DS} {y : DQ} (hd : Dom x.1 x.2) (hc : p.cnf = x.2.numVars) (hy : DRel x y) :
    ∃ a q w, prepare true p.evo p.cnf x = .ok a ∧ prepareQ p flags x = .ok (a, q) ∧ QuOK p q ∧ q.clauses = [] ∧ q.bwd = 0 ∧
      prepareA p flags y = .ok w ∧ XRel (a, q) w := by
  obtain ⟨a, q, e1, e2, h1, h2, h3⟩ := prepareQ_ok (p := p) (flags := flags) hd hc
  obtain ⟨db, s⟩ := x
  obtain ⟨db', x⟩ := y
  obtain ⟨rfl, hx⟩ := hy
  simp only [] at hx hd hc
  obtain ⟨⟨db1, s1⟩, e⟩ := a
  obtain ⟨rfl, e3⟩ := prepareQ_heap (h := []) e2
  refine ⟨_, q, (((db1, x), e), q), e1, e2, h1, h2, h3, ?_, ⟨⟨⟨rfl, hx⟩, rfl⟩, rfl, fun c hm => by rw [h2] at hm; cases hm⟩⟩
  unfold prepareA
  simp only []
  have hall : (db'.ids.all fun i => okC db' i && x.okLits (db'.clause i).lits) = true := by
    rw [List.all_eq_true]
    intro i hi
    rw [Bool.and_eq_true]
    refine ⟨okC_of ?_, okLits_of hx fun l hl => ⟨(hd.cl i l hl).1, (hd.cl i l hl).2.1⟩⟩
    rw [Cdb.ids, List.mem_iff_getElem] at hi
    obtain ⟨k, hk, rfl⟩ := hi
    simp only [List.length_drop, List.length_range, List.getElem_drop, List.getElem_range] at hk ⊢
    omega
  rw [hall, ResQ.chk_true, show ({ x.s with heap := [] } : Stk) = { s1 with heap := [] } by rw [← hx.same], e3]

/-! ## pure literals -/

/-- The trails and the queues agree. -/
def PQRel (u : DS × Queues) (v : DQ × Queues) : Prop := DRel u.1 v.1 ∧ v.2 = u.2

theorem pureLoopQ_len {p : Lims} {e : El} : ∀ {n vi : Nat} {x : DS} {q : Queues} {a : DS × Queues}, pureLoopQ p e n vi x q = .ok a → a.1.1.len = x.1.len
  | 0, _, _, _, _, ea => by unfold pureLoopQ at ea; cases ea; rfl
  | n + 1, vi, x, q, a, ea => by
    unfold pureLoopQ at ea
    split at ea
    · exact pureLoopQ_len ea
    split at ea
    · cases ea
    split at ea
    · exact pureLoopQ_len ea
    split at ea
    · obtain ⟨u, k1, k2⟩ := Res.bind_ok ea
      obtain ⟨q1, -, k3⟩ := Res.bind_ok k2
      exact (pureLoopQ_len k3).trans ((assignRootRes_len k1).trans rfl)
    split at ea
    · obtain ⟨u, k1, k2⟩ := Res.bind_ok ea
      obtain ⟨q1, -, k3⟩ := Res.bind_ok k2
      exact (pureLoopQ_len k3).trans ((assignRootRes_len k1).trans rfl)
    · obtain ⟨q1, -, k3⟩ := Res.bind_ok ea
      exact pureLoopQ_len k3

theorem pureLoop_simA {p : Lims} {e : El} {nv : Nat} : ∀ {n vi : Nat} {x : DS} {y : DQ} {q : Queues}, DRel x y → x.2.lim = [] → x.2.numVars = nv → QuOK p q →
    1 ≤ vi → vi + n ≤ nv + 1 → vi + n ≤ p.cnf + 1 → RRel PQRel (pureLoopQ p e n vi x q) (pureLoopA p e n vi y q)
  | 0, _, _, _, _, hy, _, _, _, _, _, _ => .ok ⟨hy, rfl⟩
  | n + 1, vi, x, y, q, hy, hl, hnv, hq, h1, h2, h3 => by
    have e4 : y.2.s.assign = x.2.assign := by rw [← hy.rel.same]
    have hv : ∀ b, 1 ≤ (⟨vi, b⟩ : Lit).var ∧ (⟨vi, b⟩ : Lit).var ≤ x.2.numVars := fun b => ⟨h1, by simp only []; omega⟩
    obtain ⟨q1, e1, t1⟩ := enqVar_ok (e := e) (up := false) hq h1 (v := vi) (by omega)
    have hass : ∀ b (d : Cdb), RRel PQRel ((x.2.assignRootRes d ⟨vi, b⟩).bind fun x1 => (enqVar p e q vi false).bind (pureLoopQ p e n (vi + 1) x1))
        ((y.2.assignRootResQ d ⟨vi, b⟩).bind fun y1 => match enqVar p e q vi false with | .ok q1 => pureLoopA p e n (vi + 1) y1 q1 | _ => .panic) := by
      intro b d
      rw [e1]
      refine (assignRootRes_sim hy.rel d (hv b)).bind fun a c ea hac => ?_
      have hs : a.2.numVars = x.2.numVars ∧ a.2.lim = [] := by
        unfold Stk.assignRootRes at ea
        split at ea
        · rename_i s1 he
          cases ea
          unfold Stk.assignRoot at he
          rw [cancelUntil_noop (by unfold Stk.dl; rw [hl]; simp)] at he
          simp only [] at he
          split at he
          · cases he; exact ⟨rfl, hl⟩
          · simp only [Prod.mk.injEq] at he
            rw [← he.1]; exact ⟨rfl, hl⟩
        · cases ea
      exact pureLoop_simA hac hs.2 (hs.1.trans hnv) t1.ok (by omega) (by omega) (by omega)
    unfold pureLoopQ pureLoopA
    rw [okV_of hy.rel (hv true), ResQ.chk_true, e4, hy.db]
    split
    · exact pureLoop_simA hy hl hnv hq (by omega) (by omega) (by omega)
    split
    · exact .panic
    split
    · exact pureLoop_simA hy hl hnv hq (by omega) (by omega) (by omega)
    split
    · exact hass true _
    split
    · exact hass false _
    · rw [e1]
      exact pureLoop_simA hy hl hnv t1.ok (by omega) (by omega) (by omega)

/-! ## the eliminator between stages -/

theorem segmentElim_simW {F : Form} {nv : Nat} {c : CfgW} {ctl : Ctl} {oom : Bool} {y : Sol} {x : SolQ} (hx : SolRel y x) (h : ROK F nv y.store (y.db, y.s))
    (hc : y.cnf = nv) (hk : KT (y.db, y.s)) : RRel SolRel (segmentElimW c ctl.blind oom y) (segmentElimA c ctl oom x) := by
  unfold segmentElimW Splr.segmentElimQ segmentElimA
  cases hen : c.cfg.enable with
  | false =>
    simp only [Bool.false_eq_true, if_false]
    exact segmentElim_sim hx h hk
  | true =>
    simp only [if_true]
    obtain ⟨recs, g, e⟩ := h.glob
    have hnv : y.s.numVars = nv := h.nvar
    rw [hx.cnf]
    obtain ⟨a, q, w, ep, eq, hq, hcl, hb, ea, hr⟩ := prepare_simA (p := ctl.lims c.cfg.evo y.cnf) (flags := ctl.flags) (x := (y.db, y.s)) (y := (x.db, x.x)) g.dom
      (by show y.cnf = _; rw [hc]; exact hnv.symm) ⟨hx.db, hx.rel⟩
    have c0 : CE True (y.db, y.s) := ⟨hk.rinv.wf, hk.rinv.inv, h.lim, hk.wt⟩
    have c1 : CE True a.1 := ce_prepare ep c0
    obtain ⟨p1, p2, p3, p4⟩ := prepare_spec g.rinv.wf g.dom h.unl ep
    have hE : EOK F y.s recs a := by
      refine ⟨[], ?_, by rw [p3]; rfl, by rw [p1]; exact h.lim, p4, by rw [p1]; exact id, by rw [p1]; exact id, by rw [p1]⟩
      rw [List.append_nil, p1]
      exact g.step (Tr.flags (r := true) g.rinv h.lim p2)
    have hG : GOK F y.s recs (ctl.lims c.cfg.evo y.cnf) (a, q) := ⟨hE, hq, by show y.cnf = _; rw [hc]; exact hnv.symm, by rw [hb]; exact Nat.zero_le _⟩
    rw [show prepareQ (ctl.blind.lims c.cfg.evo y.cnf) ctl.blind.flags (y.db, y.s) = _ from eq, ea, Res.bind_okk]
    refine RRel.bind (R := ERel) (simplify_simA hr ⟨hG, c1, OB.prepare ep⟩ hcl) fun u v _ huv => .ok ⟨huv.d.db, huv.d.rel, by simp only []; rw [hx.store, huv.e], by rfl⟩

/-! ## the end of a stage -/

variable {K : Type} [LinearOrder K]

/-- The solvers and the counters agree. -/
def SCRel (u : Sol × Counts) (v : SolQ × Counts) : Prop := SolRel u.1 v.1 ∧ v.2 = u.2

/-- The same iteration, with another choice among the queued variables and with the choices of the eliminator as functions of what can be read. -/
def TickW.with (t : TickW K) (pick : List Nat → Nat) : TickW K := { t with o := { t.o with pick := pick }, ctl := t.ctl.blind }

theorem reduce_simW {k : Keys K} {t : ReductionType K} {x : DS} {y : DQ} (h : KT x) (hy : DRel x y) :
    ∃ db2, reduceW k t x = .ok (db2, x.2) ∧ reduceA k t y = .ok (db2, y.2) ∧ ∃ vs, x.1.reduce x.2.level vs = some db2 := by
  obtain ⟨vs, hv⟩ := reduceW_choice k t x
  obtain ⟨db2, hr⟩ := reduce_some (level := x.2.level) (victims := vs) h.rinv.wf
  have e1 : reduceW k t x = .ok (db2, x.2) := by rw [hv]; unfold Cdb.reduceRes; rw [hr]
  refine ⟨db2, e1, ?_, vs, hr⟩
  have e5 : y.2.s.level = x.2.level := by rw [← hy.rel.same]
  have hall : (y.1.ids.all fun i => y.2.okRank (y.1.clause i).lits) = true := by
    rw [List.all_eq_true]
    intro i _
    rw [hy.db]
    exact okRank_of hy.rel (fun l hl => ⟨(h.dom.cl i l hl).1, (h.dom.cl i l hl).2.1⟩) h.dom.lv
  unfold reduceA
  rw [hall, ResQ.chk_true, e5, hy.db]
  unfold reduceW at e1
  cases hb : x.1.reduceBy x.2.level k t with
  | none => rw [hb] at e1; cases e1
  | some d => rw [hb] at e1; cases e1; rfl

theorem stageStep_simW {F : Form} {nv : Nat} {c : CfgW} {t : TickW K} {pick : List Nat → Nat} {m : StageManager} {flag : Option Bool} {n : Counts} {y : Sol} {x : SolQ}
    (hx : SolRel y x) (h : SOK F nv y) (hc : y.cnf = nv) (hw : Lv y.db y.s) :
    RRel SCRel (stageStepW c (t.with pick) m flag n y) (stageStepA c t m flag n x) := by
  obtain ⟨Z, hw, -⟩ := hw
  unfold stageStepW stageStepA
  have f1 : (t.with pick).timeout = t.timeout := rfl
  have f2 : (t.with pick).o.low2 = t.o.low2 := rfl
  have f3 : (t.with pick).keys = t.keys := rfl
  have f4 : (t.with pick).used = t.used := rfl
  have f5 : (t.with pick).ctl = t.ctl.blind := rfl
  have f6 : (t.with pick).oom = t.oom := rfl
  simp only [f1, f2, f3, f4, f5, f6]
  by_cases hto : t.timeout = true
  · rw [if_pos hto, if_pos hto]; exact .err
  rw [if_neg hto, if_neg hto]
  obtain ⟨recs, g, e⟩ := h.glob
  have t1 : Tr true false y.db y.s y.db (y.s.restart t.o.low2) := Tr.cancelUntil h.pinv.rinv t.o.low2 0
  have h1 : ROK F nv y.store (y.db, y.s.restart t.o.low2) := ⟨t1.sp.numVars.trans h.nvar, cancelUntil_lim0, t1.sp.heap h.heap, h.unl, recs, g.step t1, e⟩
  have g1 := g.step t1
  have hw1 := hw.mono (E' := fun _ _ => True) fun _ _ _ => trivial
  have k0 : KT (y.db, y.s.restart t.o.low2) := ⟨t1.rinv, t1.dom h.dom, hw1.cancelUntil' h.pinv.inv t.o.low2 0⟩
  obtain ⟨x0, e0, hx0⟩ := hx.rel.cancelUntil t.o.low2 0
  rw [e0, ResQ.lift_some]
  refine (clearAsserted_sim (x := (y.db, y.s.restart t.o.low2)) (y := (x.db, x0)) k0 cancelUntil_lim0 ⟨hx.db, hx0⟩).bind fun x1 w1 e1 hr1 => ?_
  have k1 := kw_clearAsserted k0 (cancelUntil_lim0) e1
  have q1 := (rg_clearAsserted (r := true) (x := (y.db, y.s.restart t.o.low2)) g1.rinv cancelUntil_lim0 g1.dom).ok e1
  have h2 := h1.step (y := x1) q1.1 q1.2 (q1.1.unl rfl)
  obtain ⟨db2, r1, r2, vs, hr⟩ := reduce_simW (k := t.keys) (t := reductionW c m flag.isSome) k1.1 hr1
  rw [r1, r2]
  obtain ⟨t2, u2⟩ := reduce_tr (r := true) k1.1.rinv h2.lim hr
  have h3 : ROK F nv y.store (db2, x1.2) := h2.step t2 h2.lim u2
  have k2 : KT (db2, x1.2) := ⟨t2.rinv, t2.dom k1.1.dom, reduce_wt k1.1.rinv.wf k1.1.wt hr⟩
  simp only [Res.bind_okk]
  show RRel SCRel _ (ResQ.bind _ _)
  refine RRel.bind (R := SCRel) ?_ fun a b _ hab => ?_
  · split
    · refine (vivifyAll_simA (x := (db2, x1.2)) (y := (db2, w1.2)) k2 h3.lim ⟨rfl, hr1.rel⟩).bind fun x3 w3 e3 hr3 => ?_
      obtain ⟨us, hus⟩ := vivifyAll_vivify c.vivLimit (n.restarts + 1 == 0) (n.vivs % 32) t.used (db2, x1.2)
      rw [hus] at e3
      have k3 := kw_vivify k2 k1.2 e3
      have q3 := (rg_vivify (r := true) (x := (db2, x1.2)) k2.rinv h3.lim k2.dom).ok e3
      have h4 := h3.step (y := x3) q3.1 q3.2 (q3.1.unl rfl)
      refine RRel.bind (R := SolRel) ?_ fun a b _ hab => .ok ⟨hab, rfl⟩
      split
      · exact segmentElim_simW (y := { y with db := x3.1, s := x3.2 }) ⟨hr3.db, hr3.rel, hx.store, hx.cnf⟩ h4 hc k3.1
      · exact .ok ⟨hr3.db, hr3.rel, hx.store, hx.cnf⟩
    · exact .ok ⟨⟨rfl, hr1.rel, hx.store, hx.cnf⟩, rfl⟩
  · obtain ⟨ha, hb⟩ := hab
    obtain ⟨x4, e4, h4, -⟩ := ha.rel.clearSaved
    rw [e4, ResQ.lift_some]
    exact .ok ⟨⟨ha.db, h4, ha.store, ha.cnf⟩, hb⟩

/-! ## preprocessing -/

/-- The same choices, with the choices of the eliminator as functions of what can be read. -/
def PreW.blind (p : PreW) : PreW := { p with ctl := p.ctl.blind }

theorem preprocess_simW {F : Form} {c : CfgW} {o : PreW} {n : Counts} {y : Sol} {x : SolQ} (hx : SolRel y x) (h : Built F y) (hc : y.cnf = y.s.numVars) :
    RRel SolRel (preprocessW c o.blind n y) (preprocessA c o n x) := by
  have hb := h.bok.1
  unfold preprocessW preprocessA
  have f1 : o.blind.oom = o.oom := rfl
  have f2 : o.blind.oom1 = o.oom1 := rfl
  have f3 : o.blind.oom2 = o.oom2 := rfl
  have f4 : o.blind.used = o.used := rfl
  have f5 : o.blind.ctl = o.ctl.blind := rfl
  have f6 : o.ctl.blind.lims c.cfg.evo y.cnf = o.ctl.lims c.cfg.evo y.cnf := rfl
  have f7 : o.ctl.blind.flags = o.ctl.flags := rfl
  simp only [f1, f2, f3, f4, f5, f6, f7, hx.cnf]
  by_cases ho : o.oom = true
  · rw [if_pos ho, if_pos ho]; exact .err
  rw [if_neg ho, if_neg ho]
  have k0 : KT (y.db, y.s) := ⟨hb.rinv, hb.dom, (h.bw.wt hb.lim).mono fun _ _ _ => trivial⟩
  refine (vivifyAll_simA (x := (y.db, y.s)) (y := (x.db, x.x)) k0 hb.lim ⟨hx.db, hx.rel⟩).bind fun x1 w1 e1 hr1 => ?_
  obtain ⟨us, hus⟩ := vivifyAll_vivify c.vivLimit (n.restarts == 0) (n.vivs % 32) o.used (y.db, y.s)
  rw [hus] at e1
  obtain ⟨t1, l1⟩ := (rg_vivify (r := true) (x := (y.db, y.s)) hb.rinv hb.lim hb.dom).ok e1
  simp only [id] at t1
  have k1 := kw_vivify k0 hb.lim e1
  refine RRel.bind (R := DRel) (RRel.orOom ((sandbox_sim k1.1 hr1).bind fun a b _ hab => by split <;> [exact .err; exact .ok hab])) fun x2 w2 e2 hr2 => ?_
  obtain ⟨u, e6, e7⟩ := Res.bind_ok (Res.orOom_ok e2)
  split at e7
  · cases e7
  cases e7
  obtain ⟨t2, l2⟩ := (rg_propagate (k := true) (r := true) k1.1.rinv l1).ok e6
  simp only [id] at t2
  have k2 := kw_propagate k1.1 k1.2 e6
  have hnv : x2.2.numVars = y.s.numVars := t2.sp.numVars.trans t1.sp.numVars
  have g2 := (hb.glob.step t1).step t2
  have c2 := (hb.cov.step t1).step t2
  have v2 := t2.sv rfl (t1.sv rfl hb.saved)
  have u2 : Unl x2.1 := t2.unl rfl (t1.unl rfl hb.unl)
  have c3 : CE True x2 := ⟨k2.1.rinv.wf, k2.1.rinv.inv, k2.2, k2.1.wt⟩
  have hfin : ∀ (a : DS × El) (b : DQ × El), ERel a b → RRel SolRel
      (Res.ok { y with db := a.1.1, s := a.1.2.rebuildOrder, store := y.store ++ a.2.lits })
      (ResQ.lift b.1.2.rebuildOrderQ fun x5 => .ok ({ db := b.1.1, x := x5, store := x.store ++ b.2.lits, cnf := y.cnf } : SolQ)) := by
    intro a b hab
    obtain ⟨x5, e5, h5⟩ := hab.d.rel.rebuildOrder
    rw [e5, ResQ.lift_some]
    exact .ok ⟨hab.d.db, h5, by simp only []; rw [hx.store, hab.e], by rfl⟩
  cases hen : c.cfg.enable with
  | true =>
    simp only [if_true]
    obtain ⟨a, q, w, ep, eq, hq, hcl, hbw, ea, hr⟩ := prepare_simA (p := o.ctl.lims c.cfg.evo y.cnf) (flags := o.ctl.flags) (x := x2) (y := w2) g2.dom
      (by show y.cnf = _; rw [hc, hnv]) hr2
    have c4 : CE True a.1 := ce_prepare ep c3
    obtain ⟨p1, p2, p3, p4⟩ := prepare_spec g2.rinv.wf g2.dom u2 ep
    have hP : POK F y.s.numVars a.2 a.1 := by
      refine ⟨?_, ?_, by rw [p1]; exact l2, by rw [p1]; exact v2, p4, by rw [p1]; exact hnv⟩
      · rw [p1]; exact g2.step (Tr.flags (r := true) g2.rinv l2 p2)
      · intro c hc
        rw [p2.cert] at hc
        exact covered_same (fun i x => by rw [p2.lits]) (by rw [p1]; exact fun _ h => h) (c2 c hc)
    have e8 : w.1.1.2.s.numVars = a.1.2.numVars := by rw [← hr.r.d.rel.same]
    have hnva : a.1.2.numVars = y.cnf := by rw [hP.nv, hc]
    have hw2 : w.2 = q := hr.q
    rw [eq, ea, Res.bind_okk]
    show RRel SolRel _ (ResQ.bind (pureLoopA _ w.1.2 w.1.1.2.s.numVars 1 w.1.1 w.2) _)
    rw [e8, hr.r.e, hw2]
    refine (pureLoop_simA (e := a.2) (q := q) hr.r.d hP.lim rfl hq (Nat.le_refl _) (by simp only []; omega) (by show 1 + a.1.2.numVars ≤ y.cnf + 1; omega)).bind fun x3 w3 e4 hr4 => ?_
    have hpl := pureLoopQ_ok (p := o.ctl.lims c.cfg.evo y.cnf) (e := a.2) (n := a.1.2.numVars) (vi := 1) (x := a.1) hq (Nat.le_refl _) (by show 1 + _ ≤ y.cnf + 1; omega)
    have h4 := pureLoop_spec (cnf := y.cnf) hP (n := a.1.2.numVars) (vi := 1) (Nat.le_refl _) (by rw [hP.nv]; omega)
    have hlen := pureLoopQ_len e4
    cases a' : pureLoop y.cnf a.2 a.1.2.numVars 1 a.1 with
    | ok x4 =>
      rw [show pureLoop (o.ctl.lims c.cfg.evo y.cnf).cnf a.2 a.1.2.numVars 1 a.1 = _ from a'] at hpl
      rw [a'] at h4
      obtain ⟨q3, b, t3⟩ := hpl
      rw [e4] at b
      cases b
      have hE : EOK F x4.2 [] (x4, a.2) := ⟨[], by simpa using h4.glob, p3, h4.lim, h4.occ, id, id, rfl⟩
      have hG : GOK F x4.2 [] (o.ctl.lims c.cfg.evo y.cnf) ((x4, a.2), q3) :=
        ⟨hE, t3.ok, by show y.cnf = _; rw [hc, h4.nv], by rw [t3.bwd, hbw]; exact Nat.zero_le _⟩
      have hcl3 : q3.clauses = [] := t3.nil hcl
      have hX : XRel ((x4, a.2), q3) ((w3.1, a.2), w3.2) := ⟨⟨hr4.1, rfl⟩, hr4.2, fun c hm => by rw [show ((x4, a.2), q3).2.clauses = [] from hcl3] at hm; cases hm⟩
      have hJ : JOK F x4.2 [] (o.ctl.lims c.cfg.evo y.cnf) ((x4, a.2), q3) := ⟨hG, ce_pureLoop c4 a', by
        show OB x4.1.len a.2
        have : x4.1.len = a.1.1.len := hlen
        rw [this]; exact OB.prepare ep⟩
      refine RRel.bind (R := ERel) (simplify_simA hX hJ hcl3).orOom fun a b _ hab => hfin a b hab
    | _ =>
      rw [show pureLoop (o.ctl.lims c.cfg.evo y.cnf).cnf a.2 a.1.2.numVars 1 a.1 = _ from a'] at hpl
      rw [show pureLoopQ _ _ _ _ _ _ = _ from hpl] at e4
      cases e4
  | false =>
    simp only [Bool.false_eq_true, if_false]
    refine (prepare_sim hr2).bind fun z w e3 hr3 => ?_
    have c4 : CE True z.1 := ce_prepare e3 c3
    have e8 : w.1.2.s.numVars = z.1.2.numVars := by rw [← hr3.d.rel.same]
    rw [e8, hr3.e]
    simp only [prepare, Bool.not_false, if_true, Res.ok.injEq] at e3
    subst e3
    refine (pureLoop_sim hr3.d l2 rfl (Nat.le_refl _) (by omega)).bind fun x3 w3 e4 hr4 => ?_
    have hA : AOK F y.s.numVars x2 := ⟨g2, l2, v2, u2, hnv⟩
    obtain ⟨F', hF, h4⟩ := pureLoop_any hA (Nat.le_refl _) (by show 1 + x2.2.numVars ≤ _; rw [hnv]; omega) e4
    exact RRel.bind (R := ERel) (RRel.orOom (simplify_sim' (y := (x3, _)) (z := (w3, _)) ⟨hr4, rfl⟩ (.of (ce_pureLoop c4 e4) h4.glob.dom))) fun a b _ hab => hfin a b hab

/-! ## the main loop -/

/-- The solvers and the rest of the state agree. -/
def WRelA (z : Whole) (w : WholeA) : Prop := SolRel z.1 w.1 ∧ w.2 = z.2

theorem conflict_simA {F : Form} {nv : Nat} {c : CfgW} {t : TickW K} {pick : List Nat → Nat} {rank : Nat} {y : Sol} {x : SolQ} {n : Nat} {m : StageManager} {k : Counts}
    (hx : SolRel y x) (h : SOK F nv y) (hc : y.cnf = nv) (hw : Lv y.db y.s) :
    RRel WRelA (conflictW c (t.with pick) rank y n m k) (conflictA c t rank x n m k) := by
  unfold conflictW conflictA
  have f1 : (t.with pick).o.restart = t.o.restart := rfl
  have f2 : (t.with pick).o.low2 = t.o.low2 := rfl
  simp only [f1, f2]
  generalize (if 1 < rank then n + 1 else n) = n1
  by_cases he : m.ended n1 = true
  · simp only [if_pos he]
    cases hp : m.prepare n1 with
    | none => exact .panic
    | some fm =>
      obtain ⟨flag, m1⟩ := fm
      exact (stageStep_simW hx h hc hw).bind fun a b _ hab => .ok ⟨hab.1, by rw [hab.2]⟩
  · simp only [if_neg he]
    cases t.o.restart with
    | false => exact .ok ⟨hx, rfl⟩
    | true =>
      obtain ⟨x4, e4, h4⟩ := hx.rel.cancelUntil t.o.low2 0
      simp only [if_true]
      rw [e4]
      exact .ok ⟨⟨hx.db, h4, hx.store, hx.cnf⟩, rfl⟩

theorem step_simP {c : CfgW} {F : Form} {y : Sol} {x : SolQ} {w2 : Nat × StageManager × Counts} (h : Head c.cfg F y) (hr : y.s.running = true)
    (hc : y.cnf = y.s.numVars) (hx : SolRel y x) (t : TickW K) {pick : List Nat → Nat} {s : Stk} {x1 : QStk} (e1 : decideStep { t.o with pick := pick } y.s = some s)
    (e2 : x.x.decideStepQ t.o.phase = some x1) (h1 : QRel s x1) : RRel WRelA (stepW c (t.with pick) (y, w2)) (stepA c t (x, w2)) := by
  obtain ⟨n, m, k⟩ := w2
  have hd : Decided c.cfg F y.db s := .mk h hr e1
  obtain ⟨F', -, hs⟩ := h.sok
  obtain ⟨Z, hw, hn⟩ := h.lv
  obtain ⟨p1, t1, -⟩ := decideStep_spec (k := true) (r := false) hs.pinv hs.dom e1
  have w1 := decideStep_wt hs.pinv hw e1
  have n1 : Nz Z y.db s := hn.decideStep (fun l => t1.root l) e1
  have hg := propagate_good (q := t.o.q) p1
  have hpw := propagate_wtB (q := t.o.q) p1 w1
  unfold stepW stepA
  have f0 : decideStep (t.with pick).o y.s = some s := e1
  have f1 : (t.with pick).o.q = t.o.q := rfl
  have f2 : (t.with pick).o.low = t.o.low := rfl
  have f3 : (t.with pick).o.rr = t.o.rr := rfl
  have f4 : (t.with pick).o.drift = t.o.drift := rfl
  simp only [f0, f1, f2, f3, f4]
  rw [e2, hx.db]
  simp only []
  have hp := propagate_sim (q := t.o.q) hd h1
  have hcf := fun db' s' l r => Conflict.mk (db' := db') (s' := s') (l := l) (r := r) (q := t.o.q) hd
  revert hp hcf hg hpw
  generalize Stk.propagate t.o.q y.db s = r
  generalize QStk.propagateQ t.o.q y.db x1 = r'
  intro hg hpw hp hcf
  cases hp with
  | @ok db1 s1 x1 h1 => exact .ok ⟨⟨rfl, h1, hx.store, hx.cnf⟩, rfl⟩
  | panic => exact .panic
  | fuel => exact .fuel
  | @conflict db1 s1 x2 l r h2 =>
    have e3 : x2.s.dl = s1.dl := by rw [← h2.same]; rfl
    obtain ⟨st, hco⟩ := hg
    have p2 := (st.all p1).1
    have n2 : Nz Z db1 s1 := st.nz p1.wf n1
    have t2 : Tr true false y.db y.s db1 s1 := t1.trans (st.trn p1.rinv)
    simp only []
    rw [e3]
    split
    · exact .unsat h2
    rename_i h0
    have hpos : 0 < s1.dl := by omega
    have hh := conflict_simW (hcf db1 s1 l r rfl) h2 t.o.low t.o.rr t.o.drift
    have hh2 := fun db2 s2 => handle_wt (low := t.o.low) (rr := t.o.rr) (drift := t.o.drift) (db' := db2) (s' := s2) p2 hpos hpw hco
    have hh3 := fun db2 s2 => n2.handle (low := t.o.low) (rr := t.o.rr) (drift := t.o.drift) (db' := db2) (s' := s2) p2 (t2.dom hs.dom) hpos hco
    have hh4 := fun db2 s2 => handle_tr (low := t.o.low) (rr := t.o.rr) (drift := t.o.drift) (db' := db2) (s' := s2) p2 (t2.dom hs.dom) hpos hco
    have hh5 := handleConflict_spec (low := t.o.low) (rr := t.o.rr) (drift := t.o.drift) p2 hpos hco
    rw [← handleConflictW_res] at hh2 hh3 hh4 hh5
    revert hh hh2 hh3 hh4 hh5
    generalize handleConflictW db1 s1 t.o.low t.o.rr t.o.drift l r = z
    generalize handleConflictA db1 x2 t.o.low t.o.rr t.o.drift l r = z'
    intro hh hh2 hh3 hh4 hh5
    cases hh with
    | panic => exact .panic
    | unsat h3 => exact .unsat h3
    | @ok db2 s2 x3 rank h3 =>
      have w3 := hh2 db2 s2 rfl
      have n3 := hh3 db2 s2 rfl
      have t3 := hh4 db2 s2 rfl
      have hok : PInv db2 s2 := hh5.choose_spec.choose_spec.choose_spec.2.2.inv
      have hS : SOK F' y.s.numVars { y with db := db2, s := s2 } := by
        have := hs.step (t2.trans t3) hok
        rw [hs.nvar]; exact this
      exact conflict_simA (y := { y with db := db2, s := s2 }) ⟨rfl, h3, hx.store, hx.cnf⟩ hS hc ⟨Z, w3, n3⟩

theorem step_simW {c : CfgW} {F : Form} {z : Whole} {w : WholeA} (h : Head c.cfg F z.1) (hr : z.1.s.running = true) (hc : z.1.cnf = z.1.s.numVars)
    (hx : WRelA z w) (t : TickW K) : ∃ pick, RRel WRelA (stepW c (t.with pick) z) (stepA c t w) := by
  obtain ⟨y, n, m, k⟩ := z
  obtain ⟨x, w2⟩ := w
  obtain ⟨hx, rfl⟩ := hx
  simp only [] at h hr hc hx
  obtain ⟨pick, s, x1, e1, e2, h1⟩ := decide_sim h hr hx.rel t.o
  exact ⟨pick, step_simP h hr hc hx t e1 e2 h1⟩

/-- What holds at the head of the main loop. -/
structure HeadW (c : CfgW) (F : Form) (z : Whole) : Prop where
  head : Head c.cfg F z.1
  cnf : z.1.cnf = z.1.s.numVars
  luby : Luby.Inv z.2.2.1.luby

theorem HeadW.step {c : CfgW} {F : Form} {z z' : Whole} {t : TickW K} (h : HeadW c F z) (hr : z.1.s.running = true) (e : stepW c t z = .ok z') : HeadW c F z' := by
  obtain ⟨F', -, hs⟩ := h.head.sok
  obtain ⟨g, vs, ts, h1, -⟩ := stepW_choice c t z
  rw [e, Res.bind_okk] at h1
  obtain ⟨cs, h2, -⟩ := timedStepQ_eq (cfg := c.cfg) (t := tickOf t g vs ts) (z := z.timed) hs (h.cnf)
  rw [h2] at h1
  have h3 := timedStep_searchStep (cfg := c.cfg) (t := (tickOf t g vs ts).tick cs) (x := z.1) (n := z.2.1) h.luby
  have h1' : timedStep c.cfg ((tickOf t g vs ts).tick cs) (z.1, z.2.1, z.2.2.1) = .ok (z'.1, z'.2.1, z'.2.2.1) := h1.symm
  rw [h1', Res.bind_okk] at h3
  obtain ⟨k1, k2, -, k4⟩ := timedStep_ok h.luby hs h.cnf h.head.lv h1'
  exact ⟨.step h.head hr h3.symm, by rw [k2, k1.nvar], k4⟩

/-- The same iterations, except for the choice among the variables of the queue. -/
def SameTicks (ts ts' : List (TickW K)) : Prop := List.Forall₂ (fun t t' : TickW K => ∃ pick, t' = t.with pick) ts ts'

omit [LinearOrder K] in
theorem SameTicks.any : ∀ (ts : List (TickW K)), ∃ ts', SameTicks ts ts'
  | [] => ⟨[], .nil⟩
  | t :: ts => by obtain ⟨ts', h⟩ := SameTicks.any ts; exact ⟨t.with t.o.pick :: ts', .cons ⟨_, rfl⟩ h⟩

theorem loop_simW {c : CfgW} {F : Form} : ∀ (ts : List (TickW K)) {z : Whole} {w : WholeA}, HeadW c F z → WRelA z w →
    ∃ ts', SameTicks ts ts' ∧ RRel WRelA (loopW c ts' z) (loopA c ts w)
  | [], z, w, _, hx => ⟨[], .nil, .ok hx⟩
  | t :: ts, z, w, h, hx => by
    have e1 : w.1.x.s.running = z.1.s.running := by rw [← hx.1.rel.same]; rfl
    unfold loopA
    rw [e1]
    by_cases hr : z.1.s.running = true
    · rw [if_pos hr]
      obtain ⟨pick, hs⟩ := step_simW h.head hr h.cnf hx t
      cases hq : stepW c (t.with pick) z with
      | ok a =>
        rw [hq] at hs
        cases hb : stepA c t w with
        | ok b =>
          rw [hb] at hs
          have hab : WRelA a b := by cases hs; assumption
          obtain ⟨ts', h1, h2⟩ := loop_simW ts (h.step hr hq) hab
          refine ⟨t.with pick :: ts', .cons ⟨pick, rfl⟩ h1, ?_⟩
          unfold loopW
          rw [if_pos hr, hq]
          exact h2
        | _ => rw [hb] at hs; cases hs
      | _ =>
        rw [hq] at hs
        obtain ⟨ts', h1⟩ := SameTicks.any ts
        refine ⟨t.with pick :: ts', .cons ⟨pick, rfl⟩ h1, ?_⟩
        unfold loopW
        rw [if_pos hr, hq]
        revert hs
        generalize stepA c t w = r'
        intro hs
        cases hs
        first | exact .unsat ‹_› | exact .err | exact .panic | exact .fuel
    · rw [if_neg hr]
      obtain ⟨ts', h1⟩ := SameTicks.any ts
      refine ⟨t.with t.o.pick :: ts', .cons ⟨_, rfl⟩ h1, ?_⟩
      unfold loopW
      rw [if_neg hr]
      exact .ok hx

theorem HeadW.start {F : Form} {c : CfgW} {p : PreW} {n : Counts} {y a : Sol} (h : Built F y) (hc : y.cnf = y.s.numVars) {k : Nat} {m : StageManager} (hm : Luby.Inv m.luby)
    {n' : Counts} (e : preprocessW c p n y = .ok a) : HeadW c F (a, k, m, n') := by
  obtain ⟨q, -, h2, -⟩ := preprocessW_choice c p n y
  obtain ⟨cs, h3, -⟩ := preprocessQ_eq (cfg := c.cfg) (o := q) h.bok.1 hc
  rw [e] at h2
  have hp : preprocess c.cfg (q.pre cs) y = .ok a := by rw [← h3, ← h2]
  obtain ⟨F', -, hz⟩ := preprocess_any h.bok.1 hp
  obtain ⟨-, k⟩ := preprocess_lv h hp
  exact ⟨.start h hp, by rw [k, hc, hz.nvar], hm⟩

/-- The solver with the array queue does what the solver with a set of queued variables does, for some choices among the queued variables. -/
theorem solve_simW {F : Form} {c : CfgW} {y : Sol} {x : SolQ} (h : Built F y) (hc : y.cnf = y.s.numVars) (hx : SolRel y x) (p : PreW) {m : StageManager}
    (hm : Luby.Inv (m.initialize 32).luby) (n : Counts) (ts : List (TickW K)) (low : Nat → Bool) :
    ∃ ts', SameTicks ts ts' ∧ ARel (solveW c p.blind m n ts' low y) (solveA c p m n ts low x) := by
  have hp := preprocess_simW (c := c) (o := p) (n := n) hx h hc
  have hh := fun z => HeadW.start (c := c) (p := p.blind) (n := n) (a := z) h hc (k := 0) hm (n' := { n with vivs := n.vivs + 1 })
  unfold solveW solveA
  revert hp hh
  generalize preprocessW c p.blind n y = r
  generalize preprocessA c p n x = r'
  intro hp hh
  cases hp with
  | @ok a b hab =>
    obtain ⟨ts', h1, h2⟩ := loop_simW ts (hh a rfl) (w := (b, 0, m.initialize 32, { n with vivs := n.vivs + 1 })) ⟨hab, rfl⟩
    refine ⟨ts', h1, ?_⟩
    simp only [Res.bind, ResQ.bind]
    revert h2
    generalize loopW c ts' (a, 0, m.initialize 32, { n with vivs := n.vivs + 1 }) = q
    generalize loopA c ts (b, 0, m.initialize 32, { n with vivs := n.vivs + 1 }) = q'
    intro h2
    cases h2 with
    | @ok u v huv =>
      have e1 : v.1.x.s.running = u.1.s.running := by rw [← huv.1.rel.same]; rfl
      simp only []
      rw [e1]
      split
      · exact .more huv.1
      · exact finish_sim huv.1
    | unsat _ => exact .unsat
    | err => exact .err
    | panic => exact .panic
    | fuel => exact .fuel
  | unsat _ => obtain ⟨ts', h1⟩ := SameTicks.any ts; exact ⟨ts', h1, .unsat⟩
  | err => obtain ⟨ts', h1⟩ := SameTicks.any ts; exact ⟨ts', h1, .err⟩
  | panic => obtain ⟨ts', h1⟩ := SameTicks.any ts; exact ⟨ts', h1, .panic⟩
  | fuel => obtain ⟨ts', h1⟩ := SameTicks.any ts; exact ⟨ts', h1, .fuel⟩

end Splr
