import Verif.Lemmas.QueueLoop
/-! # The array queue: elimination of variables under the control of the queues -/
namespace Splr
open Stk QStk Heap

theorem QSim.inv {Q : Queues → Prop} {r : Res ES} {r0 : Res (DS × El)} {a : ES} (h : QSim Q r r0) (e : r = .ok a) : r0 = .ok a.1 ∧ Q a.2 := by
  subst e
  cases r0 with
  | ok y => obtain ⟨q, e, hq⟩ := h; cases e; exact ⟨rfl, hq⟩
  | _ => unfold QSim at h; simp at h

theorem addCid_simA {p : Lims} {z : ES} {w : EQ} {cid : Nat} {b : Bool} (h : XRel z w) (hq : QuOK p z.2) (hr : VarsIn p.cnf (z.1.1.1.clause cid).lits)
    (hc : 1 ≤ cid ∧ cid < z.1.1.1.len) : RRel XRel (addCidQ p z cid b) (readA w fun z => addCidQ p z cid b) := by
  unfold readA
  rw [h.view]
  unfold addCidQ blind
  simp only []
  split
  · refine .ok ⟨⟨⟨rfl, h.r.d.rel⟩, rfl⟩, rfl, h.b⟩
  · obtain ⟨q', e1, t⟩ := addLitsQ_ok (el := z.1.1.2.elim) (cid := cid) (e := z.1.2) hq hr
    have hcl := addLitsQ_cl e1
    rw [e1]
    refine .ok ⟨⟨⟨rfl, h.r.d.rel⟩, rfl⟩, rfl, ?_⟩
    simp only [] at hcl ⊢
    have hb : QB (z.1.1.1.setLinked cid true).len q' := h.b.eq hcl
    split
    · exact hb.enq hc
    · exact hb

theorem resolveOne_simA {p : Lims} {v i j : Nat} {z : ES} {w : EQ} (h : XRel z w) (hw : z.1.1.1.WF) (hd : Dom z.1.1.1 z.1.1.2) (hq : QuOK p z.2)
    (hcnf : p.cnf = z.1.1.2.numVars) (hi : (z.1.1.1.clause i).lits ≠ []) (hj : (z.1.1.1.clause j).lits ≠ []) :
    RRel XRel (resolveOneQ p v i j z) (resolveOneA p v i j w) := by
  have hm : ∀ l ∈ mergeLits v (z.1.1.1.clause i).lits (z.1.1.1.clause j).lits, 1 ≤ l.var ∧ l.var ≤ z.1.1.2.numVars := fun l hl =>
    (mem_mergeLits hl).elim (fun h => hd.range h) fun h => hd.range h
  have hnd := mergeLits_nodup (v := v) (hw.nd i) (hw.nd j)
  have e1 : w.1.1.2.s.val = z.1.1.2.val := by rw [← h.r.d.rel.same]; rfl
  have e2 : w.1.1.2.s.level = z.1.1.2.level := by rw [← h.r.d.rel.same]
  have hx := h.r.d.rel
  unfold resolveOneQ resolveOneA
  simp only []
  rw [okCl_of h hw (fun _ hl => hd.range hl) hi, okCl_of h hw (fun _ hl => hd.range hl) hj, Bool.and_self, ResQ.chk_true, h.r.d.db, e1, e2]
  revert hm hnd
  generalize mergeLits v (z.1.1.1.clause i).lits (z.1.1.1.clause j).lits = vec
  intro hm hnd
  match vec, hm, hnd with
  | [], _, _ => exact .ok h
  | [l], hm, _ =>
    simp only []
    cases z.1.1.2.val l with
    | none =>
      refine (assignRootRes_sim hx _ (hm l (by simp))).bind fun c d ec hcd => .ok ⟨⟨hcd, h.r.e⟩, h.q, ?_⟩
      simp only []
      rw [assignRootRes_db ec]
      exact h.b
    | some b =>
      cases b with
      | true => exact .ok h
      | false => exact .unsat hx
  | a :: b :: tl, hm, hnd =>
    simp only []
    rw [okRank_of hx hm hd.lv, ResQ.chk_true]
    cases hn : z.1.1.1.newClause z.1.1.2.level (a :: b :: tl) ((z.1.1.1.clause i).learnt && (z.1.1.1.clause j).learnt) with
    | none => exact .panic
    | some r =>
      obtain ⟨db1, rf⟩ := r
      have hrng := newClause_rng (n := z.1.1.2.numVars) (fun i l hl => hd.range hl) hm hn
      obtain ⟨-, ⟨_, _, _, hr, hdb, -⟩ | ⟨cid, c, hr, h0, h1, -⟩⟩ := Cdb.newClause_spec hw hnd hn
      · cases hr
        refine .ok ⟨⟨⟨rfl, hx⟩, h.r.e⟩, h.q, ?_⟩
        simp only []
        rw [hdb]; exact h.b
      · cases hr
        have hl := (Cdb.newClause_counters hn).2.2.2
        have hx1 : XRel (((db1, z.1.1.2), z.1.2), { z.2 with flag := upd z.2.flag cid false })
            (((db1, w.1.1.2), w.1.2), { w.2 with flag := upd w.2.flag cid false }) := by
          rw [h.r.e, h.q]; exact ⟨⟨⟨rfl, hx⟩, rfl⟩, rfl, h.b.mono hl⟩
        simp only []
        have hok : okCl (((db1, w.1.1.2), w.1.2), w.2) cid = true := by
          unfold okCl
          simp only []
          rw [okC_of ⟨h0, h1⟩, okLits_of hx (hrng cid), Bool.and_self]
        rw [hok, ResQ.chk_true]
        exact addCid_simA hx1 ⟨hq.wf, hq.size, hq.cls⟩ (fun l hl => by rw [hcnf]; exact hrng cid l hl) ⟨h0, h1⟩

theorem resolveAll_simA {p : Lims} {v : Nat} {db0 : Cdb} {e0 : El} (hw0 : db0.WF) : ∀ {ps : List (Nat × Nat)} {z : ES} {w : EQ}, XRel z w →
    RInv z.1.1.1 z.1.1.2 → Dom z.1.1.1 z.1.1.2 → RKept db0 v e0 z.1 → QuOK p z.2 → p.cnf = z.1.1.2.numVars →
    (∀ q ∈ ps, ⟨v, true⟩ ∈ (db0.clause q.1).lits ∧ ⟨v, false⟩ ∈ (db0.clause q.2).lits) →
    RRel XRel (resolveAllQ p v ps z) (resolveAllA p v ps w)
  | [], z, w, hz, _, _, _, _, _, _ => .ok hz
  | (i, j) :: ps, z, w, hz, hi, hd, hk, hq, hcnf, hps => by
    unfold resolveAllQ resolveAllA
    have hpn := hps (i, j) (by simp)
    have n1 : (db0.clause i).lits ≠ [] := List.ne_nil_of_mem hpn.1
    have n2 : (db0.clause j).lits ≠ [] := List.ne_nil_of_mem hpn.2
    have h1 := rg_resolveOne (r := true) (evo := p.evo) hi hd hw0 hk hpn.1 hpn.2
    refine (resolveOne_simA hz hi.wf hd hq hcnf (by rw [(hk.keep i n1).1]; exact n1) (by rw [(hk.keep j n2).1]; exact n2)).bind fun a b ea hab => ?_
    obtain ⟨ea', t'⟩ := (resolveOneQ_sim (v := v) (i := i) (j := j) (y := z.1) (q := z.2) hq (fun i l hl => by rw [hcnf]; exact hd.range hl)).1.inv ea
    rw [ea'] at h1
    obtain ⟨t, hk', -⟩ := h1
    exact resolveAll_simA hw0 hab t.rinv (t.dom hd) hk' t'.ok (by rw [hcnf]; exact t.sp.numVars.symm) fun q hq => hps q (by simp [hq])

theorem dropAll_simA {p : Lims} : ∀ {cids : List Nat} {z : ES} {w : EQ}, XRel z w → z.1.1.1.WF → QuOK p z.2 → p.cnf = z.1.1.2.numVars →
    (∀ i, ∀ l ∈ (z.1.1.1.clause i).lits, 1 ≤ l.var ∧ l.var ≤ z.1.1.2.numVars) → (∀ c ∈ cids, 1 ≤ c ∧ c < z.1.1.1.len) →
    RRel XRel (dropAllQ p cids z) (dropAllA p cids w)
  | [], z, w, hz, _, _, _, _, _ => .ok hz
  | c :: cids, z, w, hz, hw, hq, hcnf, hr, hc => by
    unfold dropAllQ dropAllA
    rw [hz.r.d.db, okC_of (hc c (by simp)), ResQ.chk_true]
    split
    · exact dropAll_simA hz hw hq hcnf hr fun c hm => hc c (by simp [hm])
    rename_i hdead
    have hne : (z.1.1.1.clause c).lits ≠ [] := by simpa [Cl.dead] using hdead
    refine (dropClause_simA hz hw (hr c) hne).bind fun a b ea hab => ?_
    obtain ⟨ea1, t⟩ := (dropClauseQ_sim (y := z.1) (q := z.2) (cid := c) hq (fun l hl => by rw [hcnf]; exact hr c l hl)).inv ea
    obtain ⟨a', ea', dr, -⟩ := dropClause_spec (x := z.1.1) (e := z.1.2) hw hne
    rw [ea1] at ea'
    cases ea'
    refine dropAll_simA hab dr.wf t.ok (by rw [dr.stk]; exact hcnf) (fun i l hl => ?_) fun d hd => by rw [dropClauseQ_len hw ea]; exact hc d (by simp [hd])
    rw [dr.stk]
    by_cases e : i = c
    · subst e; rw [dr.gone] at hl; simp at hl
    · rw [dr.keep i e] at hl; exact hr i l hl

/-- `skip_var_elimination` sees only what it can read. -/
def blindSkip (skip : Nat → DS × El → Bool) : Nat → DS × El → Bool := fun v y => skip v (blind y.1, y.2)

theorem eliminateVar_simA {F : Form} {s0 : Stk} {recs : List Rec} {p : Lims} {skip : Nat → DS × El → Bool} {v : Nat} {z : ES} {w : EQ} (h : XRel z w)
    (j : JOK F s0 recs p z) (hv : 1 ≤ v ∧ v ≤ p.cnf) (hel : z.1.1.2.elim v = false) (hn : z.1.1.2.assign v = none) :
    RRel XRel (eliminateVarQ p (blindSkip skip) v z) (eliminateVarA p skip v w) := by
  have hcnf : p.cnf = z.1.1.2.numVars := by rw [j.g.cnf, j.g.eok.nv]
  unfold eliminateVarQ eliminateVarA
  rw [h.r.e]
  split
  · exact .ok h
  rename_i hab
  refine (retain_simA h j.o).bind fun z1 w1 ez1 h1 => ?_
  obtain ⟨⟨g1, f1, f2, f3, hp, hng⟩, c1, o1⟩ := (Runs.cmd (c := .retain v true) (QSim.state (z := z) (Q := fun q => q = z.2) (runCmd p.evo z.1 _) rfl)
    (Q' := fun z1 => GOK F s0 recs p z1 ∧ z1.1.1 = z.1.1 ∧ z1.2 = z.2 ∧ z1.1.2.aborted = z.1.2.aborted ∧
      (∀ c ∈ z1.1.2.pos v, ⟨v, true⟩ ∈ (z1.1.1.1.clause c).lits) ∧ (∀ c ∈ z1.1.2.neg v, ⟨v, false⟩ ∈ (z1.1.1.1.clause c).lits)) fun y q e hq => by
        subst hq
        refine ⟨j.g.cmd e j.g.q j.g.bwd, ?_⟩
        cases e
        refine ⟨rfl, rfl, rfl, fun c hc => ?_, fun c hc => ?_⟩ <;> simp [El.keep] at hc <;> exact hc.2).after ez1 j.c j.o
  have e5 : view w1 = ((blind z1.1.1, z1.1.2), z1.2) := h1.view
  simp only []
  rw [e5, h1.r.e, h1.q]
  simp only []
  have hsk : skip v (blind z1.1.1, z1.1.2) = blindSkip skip v z1.1 := rfl
  rw [hsk]
  split
  · exact .ok h1
  have hpe : ((z1.1.2.pos v).filter fun c => decide (⟨v, true⟩ ∈ (z1.1.1.1.clause c).lits)) = z1.1.2.pos v :=
    List.filter_eq_self.2 fun c hc => by simpa using hp c hc
  have hne : ((z1.1.2.neg v).filter fun c => decide (⟨v, false⟩ ∈ (z1.1.1.1.clause c).lits)) = z1.1.2.neg v :=
    List.filter_eq_self.2 fun c hc => by simpa using hng c hc
  have hcmd : runCmd p.evo z1.1 (.elimVar v) = eliminateVar p.evo v z1.1.1 z1.1.2 := by
    simp only [runCmd]
    rw [if_neg]
    rw [f1, f3, j.g.eok.nv, ← j.g.cnf]
    simp only [not_or, Bool.not_eq_true, not_not]
    exact ⟨by omega, by omega, hel, hn, by simpa using hab⟩
  have hcnf1 : p.cnf = z1.1.1.2.numVars := by rw [f1]; exact hcnf
  have hq1 : QuOK p { z1.2 with budget := z1.2.budget - (z1.1.2.pos v).length * (z1.1.2.neg v).length } := ⟨g1.q.wf, g1.q.size, g1.q.cls⟩
  have hab1 : z1.1.2.aborted v = false := by rw [f3]; simpa using hab
  have hn1 : z1.1.1.2.assign v = none := by rw [f1]; exact hn
  set pos := z1.1.2.pos v with hpos
  set neg := z1.1.2.neg v with hneg
  set e1 : El := { z1.1.2 with lits := z1.1.2.lits ++ elimClauses v (pos.map fun c => (z1.1.1.1.clause c).lits) (neg.map fun c => (z1.1.1.1.clause c).lits) } with he1
  have hk0 : RKept z1.1.1.1 v e1 (z1.1.1, e1) := ⟨g1.eok.lim, g1.eok.occ, rfl, fun _ _ => ⟨rfl, rfl⟩, fun _ _ h _ => h, hn1, fun _ _ => .inl rfl⟩
  have hps : ∀ q ∈ pos.flatMap fun p => neg.map fun n => (p, n), ⟨v, true⟩ ∈ (z1.1.1.1.clause q.1).lits ∧ ⟨v, false⟩ ∈ (z1.1.1.1.clause q.2).lits := by
    intro q hq
    obtain ⟨p, hpm, hq⟩ := List.mem_flatMap.1 hq
    obtain ⟨n, hnm, rfl⟩ := List.mem_map.1 hq
    exact ⟨hp p hpm, hng n hnm⟩
  have hra := rg_resolveAll (r := true) (evo := p.evo) (ps := pos.flatMap fun p => neg.map fun n => (p, n)) g1.eok.rinv.wf (y := (z1.1.1, e1)) g1.eok.rinv g1.eok.dom hk0 hps
  rw [h1.r.d.db]
  have hx1 : XRel ((z1.1.1, e1), { z1.2 with budget := z1.2.budget - pos.length * neg.length })
      ((w1.1.1, e1), { z1.2 with budget := z1.2.budget - pos.length * neg.length }) := ⟨⟨h1.r.d, rfl⟩, rfl, h1.b⟩
  refine (resolveAll_simA g1.eok.rinv.wf hx1 g1.eok.rinv g1.eok.dom hk0 hq1 hcnf1 hps).bind fun a b ea hab => ?_
  obtain ⟨s1, s2⟩ := resolveAllQ_sim (v := v) (ps := pos.flatMap fun i => neg.map fun j => (i, j)) (y := (z1.1.1, e1)) hq1 g1.rng
  obtain ⟨ea1, t1⟩ := s1.inv ea
  rw [ea1] at hra
  obtain ⟨t, hk, -, -⟩ := hra
  have hd1 := t.dom g1.eok.dom
  have hcnf2 : p.cnf = a.1.1.2.numVars := by rw [t.sp.numVars]; exact hcnf1
  have hids : ∀ c ∈ pos ++ neg, 1 ≤ c ∧ c < a.1.1.1.len := by
    intro c hc
    have hl : (z1.1.1.1.clause c).lits ≠ [] := by
      rcases List.mem_append.1 hc with hc | hc
      · exact List.ne_nil_of_mem (hp c hc)
      · exact List.ne_nil_of_mem (hng c hc)
    have := clauseIx t.rinv.wf (i := c) (by rw [(hk.keep c hl).1]; exact hl)
    exact ⟨this.1, this.2.1⟩
  refine (dropAll_simA hab t.rinv.wf t1.ok hcnf2 (fun i l hl => hd1.range hl) hids).bind fun c d ec hcd => ?_
  obtain ⟨ec1, t2⟩ := (dropAllQ_sim (y := a.1) (q := a.2) (cids := pos ++ neg) t1.ok (fun i l hl => by rw [hcnf2]; exact hd1.range hl)).inv ec
  obtain ⟨c', ec', dr⟩ := dropAll_spec (cids := pos ++ neg) t.rinv.wf hk.occ
  rw [ec1] at ec'
  cases ec'
  have hnv : c.1.1.2.numVars = z1.1.1.2.numVars := by rw [dr.stk]; exact t.sp.numVars
  obtain ⟨x', e', h'⟩ := hcd.r.d.rel.makeEliminated (v := v) (by rw [hnv, ← hcnf1]; exact hv)
  rw [e', ResQ.lift_some, hcd.r.e, hcd.q, hcd.r.d.db]
  have hrun : runCmd p.evo z1.1 (.elimVar v) = .ok ((c.1.1.1, c.1.1.2.makeEliminated v), c.1.2.clearVar v) := by
    rw [hcmd]
    unfold eliminateVar
    simp only []
    rw [← hpos, ← hneg, hpe, hne, hpos, upd_self, hneg, upd_self, ← hpos, ← hneg, ← he1]
    rw [show (z1.1.1, e1) = (z1.1.1, e1) from rfl, ea1]
    simp only [Res.bind]
    rw [ec1]
  obtain ⟨k1, t1⟩ := t1
  obtain ⟨k2, t2⟩ := t2
  have hbw : c.2.bwd = z1.2.bwd := t2.bwd.trans t1.bwd
  refine backward_simA (z := (((c.1.1.1, c.1.1.2.makeEliminated v), c.1.2.clearVar v), c.2)) ⟨⟨⟨rfl, h'⟩, rfl⟩, rfl, hcd.b⟩
    ⟨g1.cmd hrun t2.ok (by rw [hbw]; exact g1.bwd), ce_runCmd (.inl trivial) c1 hrun, OB.runCmd c1 o1 hrun⟩

end Splr
