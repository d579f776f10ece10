import Verif.Lemmas.QueueWhole
import Verif.Lemmas.Careful
import Verif.Model.QueueAmple
/-! The eliminator of the most detailed model reaches its limits exactly if that of the abstract one does. -/
namespace Splr
open Stk QStk Heap Stage

theorem RRel.every {α β : Type} {R : α → β → Prop} {r : Res α} {r' : ResQ β} {f : α → Bool} {g : β → Bool} (h : RRel R r r')
    (hf : ∀ a b, r = .ok a → R a b → f a = g b) : r.every f = ResQ.every r' g := by
  cases h with
  | ok h => exact hf _ _ rfl h
  | _ => rfl

theorem ampleLoop_succ {p : Lims} {skip : Nat → DS × El → Bool} {budget : DS → Nat} {late : Nat → Bool} {n k : Nat} {z : ES} :
    ampleLoop p skip budget late (n + 1) k z = (mainLoop p skip (mainFuel (z.1, { z.2 with budget := budget z.1.1 })) (z.1, { z.2 with budget := budget z.1.1 })).every fun z1 =>
      (decide (z1.2.budget ≠ 0) || decide (z1.2.bwd = z.2.bwd)) &&
        (Splr.propagateQ p z1).every fun z2 =>
          if z2.1.1.2.trail.length = z.1.1.2.trail.length ∧ z2.2.clauses = [] ∧ z2.2.vars.h.len = 0 then true
          else if late k then decide (z2.1.1.2.trail.length ≤ z2.2.bwd)
          else ampleLoop p skip budget late n (k + 1) z2 := by
  rw [ampleLoop]
  simp only []
  cases mainLoop p skip (mainFuel (z.1, { z.2 with budget := budget z.1.1 })) (z.1, { z.2 with budget := budget z.1.1 }) with
  | ok z1 =>
    simp only [Res.every]
    cases Splr.propagateQ p z1 <;> rfl
  | _ => rfl

theorem ampleLoop_simA {F : Form} {s0 : Stk} {recs : List Rec} {p : Lims} {skip : Nat → DS × El → Bool} {budget : DS → Nat} {late : Nat → Bool} :
    ∀ {n k : Nat} {z : ES} {w : EQ}, XRel z w → JOK F s0 recs p z → (p.cnf = 0 → z.2.clauses = []) →
    ampleLoop p (blindSkip skip) (fun x => budget (blind x)) late n k z = ampleLoopA p skip budget late n k w
  | 0, _, _, _, _, _, _ => rfl
  | n + 1, k, z, w, h, j, hz => by
    have et : w.1.1.2.s.trail = z.1.1.2.trail := by rw [← h.r.d.rel.same]
    rw [ampleLoop_succ]
    unfold ampleLoopA
    simp only []
    rw [h.view, et, h.q]
    simp only []
    have h0 : XRel (z.1, { z.2 with budget := budget (blind z.1.1) }) (w.1, { z.2 with budget := budget (blind z.1.1) }) := h.queue rfl
    have g0 : GOK F s0 recs p (z.1, { z.2 with budget := budget (blind z.1.1) }) := j.g.queues ⟨j.g.q.wf, j.g.q.size, j.g.q.cls⟩ j.g.bwd
    have j0 := j.queues g0
    have hf : mainFuel (view (w.1, { z.2 with budget := budget (blind z.1.1) })) = mainFuel (z.1, { z.2 with budget := budget (blind z.1.1) }) := by
      rw [h0.view]; rfl
    rw [hf]
    refine (mainLoop_simB h0 j0 hz).every fun z1 w1 ez1 h1 => ?_
    have hm : Runs _ _ _ _ _ := mainLoop_start (skip := blindSkip skip) j.g hz (b := budget (blind z.1.1))
    obtain ⟨⟨g1, -, v1, c1, -⟩, cc1, o1⟩ := hm.after ez1 j.c j.o
    have j1 : JOK F s0 recs p z1 := ⟨g1, cc1, o1⟩
    rw [h1.q]
    congr 1
    refine (propagate_simA h1 j1).every fun z2 w2 ez2 h2 => ?_
    have j2 := propagateQ_jok j1 ez2
    have et2 : w2.1.1.2.s.trail = z2.1.1.2.trail := by rw [← h2.r.d.rel.same]
    rw [et2, h2.q]
    split
    · rfl
    · split
      · rfl
      · refine ampleLoop_simA h2 j2 fun _ => ?_
        have hpq := propagateQ_runs (K := True) g1
        rw [ez2] at hpq
        obtain ⟨-, -, -, -, q2⟩ := hpq
        rw [q2]; exact c1

theorem ampleElim_simA {F : Form} {s0 : Stk} {recs : List Rec} {p : Lims} {c : Ctl} {z : ES} {w : EQ} (h : XRel z w) (j : JOK F s0 recs p z)
    (hz : z.2.clauses = []) : ampleElim p c.blind z = ampleElimA p c w := by
  unfold ampleElim ampleElimA
  rw [show w.1.1.2.s.numVars = z.1.1.2.numVars by rw [← h.r.d.rel.same], h.r.d.db, ← ampleLoop_simA (skip := c.skip) (budget := c.budget) h j fun _ => hz]
  congr 1
  refine Eq.trans ?_ ((eliminate_simA (skip := c.skip) (budget := c.budget) (late := c.late) h j hz).every (f := fun u => (List.range (p.cnf + 1)).all fun v => !u.1.2.aborted v) fun a b _ hab => ?_)
  · simp only [Ctl.blind]
    cases eliminateQ p (blindSkip c.skip) (fun x => c.budget (Splr.blind x)) c.late z <;> rfl
  · rw [hab.r.e]

theorem ampleSeg_simA {F : Form} {nv : Nat} {cfg : Cfg} {ctl : Ctl} {y : Sol} {x : SolQ} (hx : SolRel y x) (h : ROK F nv y.store (y.db, y.s))
    (hc : y.cnf = nv) (hk : KT (y.db, y.s)) : ampleSeg cfg ctl.blind y = ampleSegA cfg ctl x := by
  unfold ampleSeg ampleSegA
  obtain ⟨recs, g, e⟩ := h.glob
  have hnv : y.s.numVars = nv := h.nvar
  rw [hx.cnf]
  obtain ⟨a, q, w, ep, eq, hq, hcl, hb, ea, hr⟩ := prepare_simA (p := ctl.lims cfg.evo y.cnf) (flags := ctl.flags) (x := (y.db, y.s)) (y := (x.db, x.x)) g.dom
    (by show y.cnf = _; rw [hc]; exact hnv.symm) ⟨hx.db, hx.rel⟩
  have c0 : CE True (y.db, y.s) := ⟨hk.rinv.wf, hk.rinv.inv, h.lim, hk.wt⟩
  have c1 : CE True a.1 := ce_prepare ep c0
  obtain ⟨p1, p2, p3, p4⟩ := prepare_spec g.rinv.wf g.dom h.unl ep
  have hE : EOK F y.s recs a := by
    refine ⟨[], ?_, by rw [p3]; rfl, by rw [p1]; exact h.lim, p4, by rw [p1]; exact id, by rw [p1]; exact id, by rw [p1]⟩
    rw [List.append_nil, p1]
    exact g.step (Tr.flags (r := true) g.rinv h.lim p2)
  have hG : GOK F y.s recs (ctl.lims cfg.evo y.cnf) (a, q) := ⟨hE, hq, by show y.cnf = _; rw [hc]; exact hnv.symm, by rw [hb]; exact Nat.zero_le _⟩
  rw [show prepareQ (ctl.blind.lims cfg.evo y.cnf) ctl.blind.flags (y.db, y.s) = _ from eq, ea]
  exact ampleElim_simA hr ⟨hG, c1, OB.prepare ep⟩ hcl

variable {K : Type} [LinearOrder K]

theorem ampleStage_simA {F : Form} {nv : Nat} {c : CfgW} {t : TickW K} {pick : List Nat → Nat} {m : StageManager} {flag : Option Bool} {n : Counts} {y : Sol} {x : SolQ}
    (hx : SolRel y x) (h : SOK F nv y) (hc : y.cnf = nv) (hw : Lv y.db y.s) :
    ampleStageW c (t.with pick) m flag n y = ampleStageA c t m flag n x := by
  obtain ⟨Z, hw, -⟩ := hw
  unfold ampleStageW ampleStageA
  have f2 : (t.with pick).o.low2 = t.o.low2 := rfl
  have f3 : (t.with pick).keys = t.keys := rfl
  have f4 : (t.with pick).used = t.used := rfl
  have f5 : (t.with pick).ctl = t.ctl.blind := rfl
  simp only [f2, f3, f4, f5]
  split
  swap
  · rfl
  obtain ⟨recs, g, e⟩ := h.glob
  have t1 : Tr true false y.db y.s y.db (y.s.restart t.o.low2) := Tr.cancelUntil h.pinv.rinv t.o.low2 0
  have h1 : ROK F nv y.store (y.db, y.s.restart t.o.low2) := ⟨t1.sp.numVars.trans h.nvar, cancelUntil_lim0, t1.sp.heap h.heap, h.unl, recs, g.step t1, e⟩
  have g1 := g.step t1
  have hw1 := hw.mono (E' := fun _ _ => True) fun _ _ _ => trivial
  have k0 : KT (y.db, y.s.restart t.o.low2) := ⟨t1.rinv, t1.dom h.dom, hw1.cancelUntil' h.pinv.inv t.o.low2 0⟩
  obtain ⟨x0, e0, hx0⟩ := hx.rel.cancelUntil t.o.low2 0
  rw [e0, ResQ.lift_some]
  refine (clearAsserted_sim (x := (y.db, y.s.restart t.o.low2)) (y := (x.db, x0)) k0 cancelUntil_lim0 ⟨hx.db, hx0⟩).every fun x1 w1 e1 hr1 => ?_
  have k1 := kw_clearAsserted k0 (cancelUntil_lim0) e1
  have q1 := (rg_clearAsserted (r := true) (x := (y.db, y.s.restart t.o.low2)) g1.rinv cancelUntil_lim0 g1.dom).ok e1
  have h2 := h1.step (y := x1) q1.1 q1.2 (q1.1.unl rfl)
  obtain ⟨db2, r1, r2, vs, hr⟩ := reduce_simW (k := t.keys) (t := reductionW c m flag.isSome) k1.1 hr1
  rw [r1, r2]
  obtain ⟨t2, u2⟩ := reduce_tr (r := true) k1.1.rinv h2.lim hr
  have h3 : ROK F nv y.store (db2, x1.2) := h2.step t2 h2.lim u2
  have k2 : KT (db2, x1.2) := ⟨t2.rinv, t2.dom k1.1.dom, reduce_wt k1.1.rinv.wf k1.1.wt hr⟩
  simp only [Res.every, ResQ.every]
  refine (vivifyAll_simA (x := (db2, x1.2)) (y := (db2, w1.2)) k2 h3.lim ⟨rfl, hr1.rel⟩).every fun x3 w3 e3 hr3 => ?_
  obtain ⟨us, hus⟩ := vivifyAll_vivify c.vivLimit (n.restarts + 1 == 0) (n.vivs % 32) t.used (db2, x1.2)
  rw [hus] at e3
  have k3 := kw_vivify k2 k1.2 e3
  have q3 := (rg_vivify (r := true) (x := (db2, x1.2)) k2.rinv h3.lim k2.dom).ok e3
  have h4 := h3.step (y := x3) q3.1 q3.2 (q3.1.unl rfl)
  exact ampleSeg_simA (y := { y with db := x3.1, s := x3.2 }) ⟨hr3.db, hr3.rel, hx.store, hx.cnf⟩ h4 hc k3.1

theorem ampleTick_simP {c : CfgW} {F : Form} {y : Sol} {x : SolQ} {w2 : Nat × StageManager × Counts} (h : Head c.cfg F y) (hr : y.s.running = true)
    (hc : y.cnf = y.s.numVars) (hx : SolRel y x) (t : TickW K) {pick : List Nat → Nat} {s : Stk} {x1 : QStk} (e1 : decideStep { t.o with pick := pick } y.s = some s)
    (e2 : x.x.decideStepQ t.o.phase = some x1) (h1 : QRel s x1) : ampleTickW c (t.with pick) (y, w2) = ampleTickA c t (x, w2) := by
  obtain ⟨n, m, k⟩ := w2
  have hd : Decided c.cfg F y.db s := .mk h hr e1
  obtain ⟨F', -, hs⟩ := h.sok
  obtain ⟨Z, hw, hn⟩ := h.lv
  obtain ⟨p1, t1, -⟩ := decideStep_spec (k := true) (r := false) hs.pinv hs.dom e1
  have w1 := decideStep_wt hs.pinv hw e1
  have n1 : Nz Z y.db s := hn.decideStep (fun l => t1.root l) e1
  have hg := propagate_good (q := t.o.q) p1
  have hpw := propagate_wtB (q := t.o.q) p1 w1
  unfold ampleTickW ampleTickA
  have f0 : decideStep (t.with pick).o y.s = some s := e1
  have f1 : (t.with pick).o.q = t.o.q := rfl
  have f2 : (t.with pick).o.low = t.o.low := rfl
  have f3 : (t.with pick).o.rr = t.o.rr := rfl
  have f4 : (t.with pick).o.drift = t.o.drift := rfl
  simp only [f0, f1, f2, f3, f4]
  rw [e2, hx.db]
  simp only []
  have hp := propagate_sim (q := t.o.q) hd h1
  have hcf := fun db' s' l r => Conflict.mk (db' := db') (s' := s') (l := l) (r := r) (q := t.o.q) hd
  revert hp hcf hg hpw
  generalize Stk.propagate t.o.q y.db s = r
  generalize QStk.propagateQ t.o.q y.db x1 = r'
  intro hg hpw hp hcf
  cases hp with
  | @ok db1 s1 x1 h1 => rfl
  | panic => rfl
  | fuel => rfl
  | @conflict db1 s1 x2 l r h2 =>
    have e3 : x2.s.dl = s1.dl := by rw [← h2.same]; rfl
    obtain ⟨st, hco⟩ := hg
    have p2 := (st.all p1).1
    have n2 : Nz Z db1 s1 := st.nz p1.wf n1
    have t2 : Tr true false y.db y.s db1 s1 := t1.trans (st.trn p1.rinv)
    simp only []
    rw [e3]
    split
    · rfl
    rename_i h0
    have hpos : 0 < s1.dl := by omega
    have hh := conflict_simW (hcf db1 s1 l r rfl) h2 t.o.low t.o.rr t.o.drift
    have hh2 := fun db2 s2 => handle_wt (low := t.o.low) (rr := t.o.rr) (drift := t.o.drift) (db' := db2) (s' := s2) p2 hpos hpw hco
    have hh3 := fun db2 s2 => n2.handle (low := t.o.low) (rr := t.o.rr) (drift := t.o.drift) (db' := db2) (s' := s2) p2 (t2.dom hs.dom) hpos hco
    have hh4 := fun db2 s2 => handle_tr (low := t.o.low) (rr := t.o.rr) (drift := t.o.drift) (db' := db2) (s' := s2) p2 (t2.dom hs.dom) hpos hco
    have hh5 := handleConflict_spec (low := t.o.low) (rr := t.o.rr) (drift := t.o.drift) p2 hpos hco
    rw [← handleConflictW_res] at hh2 hh3 hh4 hh5
    revert hh hh2 hh3 hh4 hh5
    generalize handleConflictW db1 s1 t.o.low t.o.rr t.o.drift l r = z
    generalize handleConflictA db1 x2 t.o.low t.o.rr t.o.drift l r = z'
    intro hh hh2 hh3 hh4 hh5
    cases hh with
    | panic => rfl
    | unsat h3 => rfl
    | @ok db2 s2 x3 rank h3 =>
      have w3 := hh2 db2 s2 rfl
      have n3 := hh3 db2 s2 rfl
      have t3 := hh4 db2 s2 rfl
      have hok : PInv db2 s2 := hh5.choose_spec.choose_spec.choose_spec.2.2.inv
      have hS : SOK F' y.s.numVars { y with db := db2, s := s2 } := by
        have := hs.step (t2.trans t3) hok
        rw [hs.nvar]; exact this
      simp only []
      generalize (if 1 < rank then n + 1 else n) = n1
      split
      · cases m.prepare n1 with
        | none => rfl
        | some fm =>
          obtain ⟨flag, m1⟩ := fm
          exact ampleStage_simA (y := { y with db := db2, s := s2 }) ⟨rfl, h3, hx.store, hx.cnf⟩ hS hc ⟨Z, w3, n3⟩
      · rfl

/-- As `loop_simW`, and the eliminator reaches its limits in both runs or in none. -/
theorem loop_simB {c : CfgW} {F : Form} : ∀ (ts : List (TickW K)) {z : Whole} {w : WholeA}, HeadW c F z → WRelA z w →
    ∃ ts', SameTicks ts ts' ∧ RRel WRelA (loopW c ts' z) (loopA c ts w) ∧ ampleTicksW c ts' z = ampleTicksA c ts w
  | [], z, w, _, hx => ⟨[], .nil, .ok hx, rfl⟩
  | t :: ts, z, w, h, hx => by
    have e1 : w.1.x.s.running = z.1.s.running := by rw [← hx.1.rel.same]; rfl
    unfold loopA ampleTicksA
    rw [e1]
    by_cases hr : z.1.s.running = true
    · rw [if_pos hr, if_pos hr]
      obtain ⟨pick, hs, ha⟩ : ∃ pick, RRel WRelA (stepW c (t.with pick) z) (stepA c t w) ∧ ampleTickW c (t.with pick) z = ampleTickA c t w := by
        have hh := h.head
        have hc := h.cnf
        clear h
        obtain ⟨y, n, m, k⟩ := z
        obtain ⟨x, w2⟩ := w
        obtain ⟨hx, rfl⟩ := hx
        simp only [] at hh hr hc hx
        obtain ⟨pick, s, x1, e1, e2, h1⟩ := decide_sim hh hr hx.rel t.o
        exact ⟨pick, step_simP hh hr hc hx t e1 e2 h1, ampleTick_simP hh hr hc hx t e1 e2 h1⟩
      rw [← ha]
      cases hq : stepW c (t.with pick) z with
      | ok a =>
        rw [hq] at hs
        cases hb : stepA c t w with
        | ok b =>
          rw [hb] at hs
          cases hs with
          | ok hab =>
            obtain ⟨ts', h1, h2, h3⟩ := loop_simB ts (h.step hr hq) hab
            refine ⟨t.with pick :: ts', .cons ⟨pick, rfl⟩ h1, ?_, ?_⟩
            · unfold loopW
              rw [if_pos hr, hq]
              exact h2
            · unfold ampleTicksW
              rw [if_pos hr, hq]
              simp only [Res.every, ResQ.every]
              rw [h3]
        | _ => rw [hb] at hs; cases hs
      | _ =>
        rw [hq] at hs
        obtain ⟨ts', h1⟩ := SameTicks.any ts
        refine ⟨t.with pick :: ts', .cons ⟨pick, rfl⟩ h1, ?_, ?_⟩
        · unfold loopW
          rw [if_pos hr, hq]
          revert hs
          generalize stepA c t w = r'
          intro hs
          cases hs
          first | exact .unsat ‹_› | exact .err | exact .panic | exact .fuel
        · unfold ampleTicksW
          rw [if_pos hr, hq]
          revert hs
          generalize stepA c t w = r'
          intro hs
          cases hs
          rfl
    · rw [if_neg hr, if_neg hr]
      obtain ⟨ts', h1⟩ := SameTicks.any ts
      refine ⟨t.with t.o.pick :: ts', .cons ⟨_, rfl⟩ h1, ?_, ?_⟩
      · unfold loopW
        rw [if_neg hr]
        exact .ok hx
      · unfold ampleTicksW
        rw [if_neg hr]

theorem amplePre_simA {F : Form} {c : CfgW} {o : PreW} {n : Counts} {y : Sol} {x : SolQ} (hx : SolRel y x) (h : Built F y) (hc : y.cnf = y.s.numVars) :
    amplePreW c o.blind n y = amplePreA c o n x := by
  have hb := h.bok.1
  unfold amplePreW amplePreA
  have f4 : o.blind.used = o.used := rfl
  have f5 : o.blind.ctl = o.ctl.blind := rfl
  have f6 : o.ctl.blind.lims c.cfg.evo y.cnf = o.ctl.lims c.cfg.evo y.cnf := rfl
  have f7 : o.ctl.blind.flags = o.ctl.flags := rfl
  simp only [f4, f5, f6, f7, hx.cnf]
  have k0 : KT (y.db, y.s) := ⟨hb.rinv, hb.dom, (h.bw.wt hb.lim).mono fun _ _ _ => trivial⟩
  refine (vivifyAll_simA (x := (y.db, y.s)) (y := (x.db, x.x)) k0 hb.lim ⟨hx.db, hx.rel⟩).every fun x1 w1 e1 hr1 => ?_
  obtain ⟨us, hus⟩ := vivifyAll_vivify c.vivLimit (n.restarts == 0) (n.vivs % 32) o.used (y.db, y.s)
  rw [hus] at e1
  obtain ⟨t1, l1⟩ := (rg_vivify (r := true) (x := (y.db, y.s)) hb.rinv hb.lim hb.dom).ok e1
  simp only [id] at t1
  have k1 := kw_vivify k0 hb.lim e1
  refine (sandbox_sim k1.1 hr1).every fun x2 w2 e6 hr2 => ?_
  obtain ⟨t2, l2⟩ := (rg_propagate (k := true) (r := true) k1.1.rinv l1).ok e6
  simp only [id] at t2
  have k2 := kw_propagate k1.1 k1.2 e6
  have hnv : x2.2.numVars = y.s.numVars := t2.sp.numVars.trans t1.sp.numVars
  have g2 := (hb.glob.step t1).step t2
  have c2 := (hb.cov.step t1).step t2
  have v2 := t2.sv rfl (t1.sv rfl hb.saved)
  have u2 : Unl x2.1 := t2.unl rfl (t1.unl rfl hb.unl)
  have c3 : CE True x2 := ⟨k2.1.rinv.wf, k2.1.rinv.inv, k2.2, k2.1.wt⟩
  obtain ⟨a, q, w, ep, eq, hq, hcl, hbw, ea, hr⟩ := prepare_simA (p := o.ctl.lims c.cfg.evo y.cnf) (flags := o.ctl.flags) (x := x2) (y := w2) g2.dom
    (by show y.cnf = _; rw [hc, hnv]) hr2
  have c4 : CE True a.1 := ce_prepare ep c3
  obtain ⟨p1, p2, p3, p4⟩ := prepare_spec g2.rinv.wf g2.dom u2 ep
  have hP : POK F y.s.numVars a.2 a.1 := by
    refine ⟨?_, ?_, by rw [p1]; exact l2, by rw [p1]; exact v2, p4, by rw [p1]; exact hnv⟩
    · rw [p1]; exact g2.step (Tr.flags (r := true) g2.rinv l2 p2)
    · intro c hc
      rw [p2.cert] at hc
      exact covered_same (fun i x => by rw [p2.lits]) (by rw [p1]; exact fun _ h => h) (c2 c hc)
  have e8 : w.1.1.2.s.numVars = a.1.2.numVars := by rw [← hr.r.d.rel.same]
  have hnva : a.1.2.numVars = y.cnf := by rw [hP.nv, hc]
  have hw2 : w.2 = q := hr.q
  rw [eq, ea]
  show Res.every (pureLoopQ _ a.2 a.1.2.numVars 1 a.1 q) _ = ResQ.every (pureLoopA _ w.1.2 w.1.1.2.s.numVars 1 w.1.1 w.2) _
  rw [e8, hr.r.e, hw2]
  refine (pureLoop_simA (e := a.2) (q := q) hr.r.d hP.lim rfl hq (Nat.le_refl _) (by simp only []; omega) (by show 1 + a.1.2.numVars ≤ y.cnf + 1; omega)).every fun x3 w3 e4 hr4 => ?_
  have hpl := pureLoopQ_ok (p := o.ctl.lims c.cfg.evo y.cnf) (e := a.2) (n := a.1.2.numVars) (vi := 1) (x := a.1) hq (Nat.le_refl _) (by show 1 + _ ≤ y.cnf + 1; omega)
  have h4 := pureLoop_spec (cnf := y.cnf) hP (n := a.1.2.numVars) (vi := 1) (Nat.le_refl _) (by rw [hP.nv]; omega)
  have hlen := pureLoopQ_len e4
  cases a' : pureLoop y.cnf a.2 a.1.2.numVars 1 a.1 with
  | ok x4 =>
    rw [show pureLoop (o.ctl.lims c.cfg.evo y.cnf).cnf a.2 a.1.2.numVars 1 a.1 = _ from a'] at hpl
    rw [a'] at h4
    obtain ⟨q3, b, t3⟩ := hpl
    rw [e4] at b
    cases b
    have hE : EOK F x4.2 [] (x4, a.2) := ⟨[], by simpa using h4.glob, p3, h4.lim, h4.occ, id, id, rfl⟩
    have hG : GOK F x4.2 [] (o.ctl.lims c.cfg.evo y.cnf) ((x4, a.2), q3) :=
      ⟨hE, t3.ok, by show y.cnf = _; rw [hc, h4.nv], by rw [t3.bwd, hbw]; exact Nat.zero_le _⟩
    have hcl3 : q3.clauses = [] := t3.nil hcl
    have hX : XRel ((x4, a.2), q3) ((w3.1, a.2), w3.2) := ⟨⟨hr4.1, rfl⟩, hr4.2, fun c hm => by rw [show ((x4, a.2), q3).2.clauses = [] from hcl3] at hm; cases hm⟩
    have hJ : JOK F x4.2 [] (o.ctl.lims c.cfg.evo y.cnf) ((x4, a.2), q3) := ⟨hG, ce_pureLoop c4 a', by
      show OB x4.1.len a.2
      have : x4.1.len = a.1.1.len := hlen
      rw [this]; exact OB.prepare ep⟩
    exact ampleElim_simA hX hJ hcl3
  | _ =>
    rw [show pureLoop (o.ctl.lims c.cfg.evo y.cnf).cnf a.2 a.1.2.numVars 1 a.1 = _ from a'] at hpl
    rw [show pureLoopQ _ _ _ _ _ _ = _ from hpl] at e4
    cases e4

/-- As `solve_simW`, and the eliminator reaches its limits in both runs or in none. -/
theorem solve_simB {F : Form} {c : CfgW} {y : Sol} {x : SolQ} (h : Built F y) (hc : y.cnf = y.s.numVars) (hx : SolRel y x) (p : PreW) {m : StageManager}
    (hm : Luby.Inv (m.initialize 32).luby) (n : Counts) (ts : List (TickW K)) (low : Nat → Bool) :
    ∃ ts', SameTicks ts ts' ∧ ARel (solveW c p.blind m n ts' low y) (solveA c p m n ts low x) ∧ ampleRunW c p.blind m n ts' y = ampleRunA c p m n ts x := by
  have hp := preprocess_simW (c := c) (o := p) (n := n) hx h hc
  have hh := fun z => HeadW.start (c := c) (p := p.blind) (n := n) (a := z) h hc (k := 0) hm (n' := { n with vivs := n.vivs + 1 })
  have ha := amplePre_simA (c := c) (o := p) (n := n) hx h hc
  unfold solveW solveA ampleRunW ampleRunA
  rw [ha]
  revert hp hh
  generalize preprocessW c p.blind n y = r
  generalize preprocessA c p n x = r'
  intro hp hh
  cases hp with
  | @ok a b hab =>
    obtain ⟨ts', h1, h2, h3⟩ := loop_simB ts (hh a rfl) (w := (b, 0, m.initialize 32, { n with vivs := n.vivs + 1 })) ⟨hab, rfl⟩
    refine ⟨ts', h1, ?_, by simp only [Res.every, ResQ.every]; rw [h3]⟩
    simp only [Res.bind, ResQ.bind]
    revert h2
    generalize loopW c ts' (a, 0, m.initialize 32, { n with vivs := n.vivs + 1 }) = q
    generalize loopA c ts (b, 0, m.initialize 32, { n with vivs := n.vivs + 1 }) = q'
    intro h2
    cases h2 with
    | @ok u v huv =>
      have e1 : v.1.x.s.running = u.1.s.running := by rw [← huv.1.rel.same]; rfl
      simp only []
      rw [e1]
      split
      · exact .more huv.1
      · exact finish_sim huv.1
    | unsat _ => exact .unsat
    | err => exact .err
    | panic => exact .panic
    | fuel => exact .fuel
  | unsat _ => obtain ⟨ts', h1⟩ := SameTicks.any ts; exact ⟨ts', h1, .unsat, rfl⟩
  | err => obtain ⟨ts', h1⟩ := SameTicks.any ts; exact ⟨ts', h1, .err, rfl⟩
  | panic => obtain ⟨ts', h1⟩ := SameTicks.any ts; exact ⟨ts', h1, .panic, rfl⟩
  | fuel => obtain ⟨ts', h1⟩ := SameTicks.any ts; exact ⟨ts', h1, .fuel, rfl⟩

theorem Ctl.Real.blind {c : Ctl} (h : c.Real) : c.blind.Real := ⟨h.sub, fun v y e => h.skip v (Splr.blind y.1, y.2) e⟩

end Splr
