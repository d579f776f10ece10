import Verif.Lemmas.QueueElim
import Verif.Lemmas.ElimMain
import Verif.Model.QueueElimLoop
import Verif.Props.C66_Bounds
/-! # The array queue: the control loops of the eliminator -/
namespace Splr
open Stk QStk Heap

/-- The clauses of the queue are in range. -/
def QB (n : Nat) (q : Queues) : Prop := ∀ c, QItem.clause c ∈ q.clauses → 1 ≤ c ∧ c < n

theorem QB.mono {n m : Nat} {q : Queues} (h : QB n q) (hn : n ≤ m) : QB m q := fun c hc => ⟨(h c hc).1, Nat.lt_of_lt_of_le (h c hc).2 hn⟩

theorem QB.eq {n : Nat} {q q' : Queues} (h : QB n q) (e : q'.clauses = q.clauses) : QB n q' := fun c hc => h c (by rw [← e]; exact hc)

theorem QB.enq {n : Nat} {p : Lims} {k : Nat} {q : Queues} {cid : Nat} (h : QB n q) (hc : 1 ≤ cid ∧ cid < n) : QB n (enqClause p k q cid) := by
  unfold enqClause
  split
  · exact h
  · intro c hm
    rcases List.mem_cons.1 hm with e | hm
    · cases e; exact hc
    · exact h c hm

/-- The states agree, and the clauses of the queue are in range. -/
structure XRel (z : ES) (w : EQ) : Prop where
  r : ERel z.1 w.1
  q : w.2 = z.2
  b : QB z.1.1.1.len z.2

/-- What a function that only reads the trail sees. -/
def blind (x : DS) : DS := (x.1, { x.2 with heap := [] })

theorem XRel.view {z : ES} {w : EQ} (h : XRel z w) : view w = ((blind z.1.1, z.1.2), z.2) := by
  obtain ⟨⟨⟨db, s⟩, e⟩, q⟩ := z
  obtain ⟨⟨⟨db', x⟩, e'⟩, q'⟩ := w
  obtain ⟨⟨⟨rfl, hx⟩, rfl⟩, rfl, -⟩ := h
  simp only [] at hx
  unfold QStk.view blind
  simp only []
  rw [← hx.same]

theorem enqVar_cl {p : Lims} {e : El} {q q' : Queues} {v : Nat} {up : Bool} (h : enqVar p e q v up = .ok q') : q'.clauses = q.clauses := by
  unfold enqVar at h
  split at h
  · simp at h
  · split at h
    · simp at h
    · cases h; rfl

theorem removeLitQ_cl {p : Lims} {l : Lit} {cid : Nat} {e : El} {q : Queues} {r : El × Queues} (h : removeLitQ p l cid e q = .ok r) : r.2.clauses = q.clauses := by
  unfold removeLitQ at h
  split at h
  · cases h; rfl
  · obtain ⟨q1, e1, e2⟩ := Res.bind_ok h
    cases e2
    exact enqVar_cl e1

theorem removeCidQ_cl {p : Lims} {asg : Nat → Option Bool} {cid : Nat} : ∀ {c : Cls} {e : El} {q : Queues} {r : El × Queues}, removeCidQ p asg cid c e q = .ok r →
    r.2.clauses = q.clauses
  | [], e, q, r, h => by unfold removeCidQ at h; cases h; rfl
  | l :: c, e, q, r, h => by
    unfold removeCidQ at h
    split at h
    · obtain ⟨a, e1, e2⟩ := Res.bind_ok h
      obtain ⟨b, e3, e4⟩ := Res.bind_ok e2
      rw [removeCidQ_cl e4, enqVar_cl e3, removeLitQ_cl e1]
    · exact removeCidQ_cl h

theorem addLitsQ_cl {p : Lims} {el : Nat → Bool} {cid : Nat} : ∀ {c : Cls} {e : El} {q : Queues} {r : El × Queues}, addLitsQ p el cid c e q = .ok r →
    r.2.clauses = q.clauses
  | [], e, q, r, h => by unfold addLitsQ at h; cases h; rfl
  | l :: c, e, q, r, h => by
    unfold addLitsQ at h
    split at h
    · exact addLitsQ_cl h
    · obtain ⟨a, e1, e2⟩ := Res.bind_ok h
      rw [addLitsQ_cl e2, enqVar_cl e1]

/-- What is known between two commands. -/
structure JOK (F : Form) (s0 : Stk) (recs : List Rec) (p : Lims) (z : ES) : Prop where
  g : GOK F s0 recs p z
  c : CE True z.1.1
  o : OB z.1.1.1.len z.1.2

theorem ob_runCmds {evo : Nat} : ∀ {cs : List ECmd} {y z : DS × El}, CE True y.1 → OB y.1.1.len y.2 → runCmds evo cs y = .ok z → OB z.1.1.len z.2
  | [], y, z, _, h, e => by unfold runCmds at e; cases e; exact h
  | c :: cs, y, z, hc, h, e => by
    unfold runCmds at e
    obtain ⟨u, e2, e3⟩ := Res.bind_ok e
    exact ob_runCmds (ce_runCmd (.inl trivial) hc e2) (OB.runCmd hc h e2) e3

/-- After a run. -/
theorem Runs.after {α : Type} {evo : Nat} {y : DS × El} {st : α → DS × El} {Q : α → Prop} {r : Res α} {a : α} (h : Runs evo y st Q r) (e : r = .ok a)
    (hc : CE True y.1) (ho : OB y.1.1.len y.2) : Q a ∧ CE True (st a).1 ∧ OB (st a).1.1.len (st a).2 := by
  subst e
  obtain ⟨cs, h1, h2⟩ := h
  exact ⟨h2, ce_runCmds (.inl trivial) hc h1, ob_runCmds hc ho h1⟩

theorem JOK.queues {F : Form} {s0 : Stk} {recs : List Rec} {p : Lims} {z : ES} {q : Queues} (h : JOK F s0 recs p z) (hg : GOK F s0 recs p (z.1, q)) :
    JOK F s0 recs p (z.1, q) := ⟨hg, h.c, h.o⟩

theorem okCl_of {z : ES} {w : EQ} (h : XRel z w) (hw : z.1.1.1.WF) {cid : Nat} (hr : ∀ l ∈ (z.1.1.1.clause cid).lits, 1 ≤ l.var ∧ l.var ≤ z.1.1.2.numVars)
    (hne : (z.1.1.1.clause cid).lits ≠ []) : okCl w cid = true := by
  unfold okCl
  rw [h.r.d.db, okC_wf hw hne, okLits_of h.r.d.rel hr, Bool.and_self]

theorem dropClause_simA {p : Lims} {z : ES} {w : EQ} {cid : Nat} (h : XRel z w) (hw : z.1.1.1.WF)
    (hr : ∀ l ∈ (z.1.1.1.clause cid).lits, 1 ≤ l.var ∧ l.var ≤ z.1.1.2.numVars) (hne : (z.1.1.1.clause cid).lits ≠ []) :
    RRel XRel (dropClauseQ p z cid) (dropClauseA p w cid) := by
  unfold dropClauseA readA
  rw [okCl_of h hw hr hne, ResQ.chk_true, h.view]
  unfold dropClauseQ blind
  simp only []
  cases hc : removeCidQ p z.1.1.2.assign cid (z.1.1.1.clause cid).lits z.1.2 z.2 with
  | ok r =>
    simp only [Res.bind, Cdb.removeRes]
    cases hd : (z.1.1.1.setLinked cid false).removeClause cid with
    | none => exact .panic
    | some d =>
      refine .ok ⟨⟨⟨rfl, h.r.d.rel⟩, rfl⟩, rfl, ?_⟩
      have := (Cdb.removeClause_spec ((flags_setLinked z.1.1.1 cid false).wf hw) hd).2.2.2.1
      simp only []
      rw [this]
      exact h.b.eq (removeCidQ_cl hc)
  | unsat db s =>
    exfalso
    have : ∀ {c : Cls} {e : El} {q : Queues}, removeCidQ p z.1.1.2.assign cid c e q ≠ .unsat db s := by
      intro c
      induction c with
      | nil => intro e q h; simp [removeCidQ] at h
      | cons l c ih =>
        intro e q h
        have hv : ∀ {e : El} {q : Queues} {v : Nat} {up : Bool}, enqVar p e q v up ≠ .unsat db s := by
          intro e q v up h
          unfold enqVar at h
          split at h
          · cases h
          · split at h <;> cases h
        have hl : removeLitQ p l cid e q ≠ .unsat db s := by
          intro h
          unfold removeLitQ at h
          split at h
          · cases h
          · revert h
            cases h2 : enqVar p (e.removeLit l cid) q l.var true <;> simp only [Res.bind] <;> intro h <;> cases h
            exact hv h2
        unfold removeCidQ at h
        split at h
        · revert h
          cases h2 : removeLitQ p l cid e q <;> simp only [Res.bind] <;> intro h
          · rename_i a
            revert h
            cases h3 : enqVar p a.1 a.2 l.var true <;> simp only [] <;> intro h <;> try cases h
            · exact ih h
            · exact hv h3
          all_goals cases h
          exact hl h2
        · exact ih h
    exact this hc
  | err => exact .err
  | panic => exact .panic
  | fuel => exact .fuel

theorem EOK.range {F : Form} {s0 : Stk} {recs : List Rec} {p : Lims} {z : ES} (h : GOK F s0 recs p z) (i : Nat) :
    ∀ l ∈ (z.1.1.1.clause i).lits, 1 ≤ l.var ∧ l.var ≤ z.1.1.2.numVars := fun _ hl => h.eok.dom.range hl

theorem strengthen_simA {p : Lims} {z : ES} {w : EQ} {cid : Nat} {l : Lit} (h : XRel z w) (hw : z.1.1.1.WF) (hd : Dom z.1.1.1 z.1.1.2) (hq : QuOK p z.2)
    (hcnf : p.cnf = z.1.1.2.numVars) (hp : l ∈ (z.1.1.1.clause cid).lits) : RRel XRel (strengthenQ p z cid l) (strengthenA p w cid l) := by
  obtain ⟨⟨⟨db0, s⟩, e0⟩, q0⟩ := z
  obtain ⟨⟨⟨db, x⟩, e⟩, q⟩ := w
  obtain ⟨⟨⟨rfl, hx⟩, rfl⟩, rfl, hb⟩ := h
  simp only [] at hx hw hd hq hcnf hp hb
  have hne : (db.clause cid).lits ≠ [] := List.ne_nil_of_mem hp
  obtain ⟨db1, rf, he, w, out, hk, hlr, hlen⟩ := Cdb.transformByElimination_spec hw hp
  unfold strengthenQ QStk.strengthenA
  simp only []
  have hix := clauseIx hw hne
  rw [okCl_of (z := (((db, s), e), q)) ⟨⟨⟨rfl, hx⟩, rfl⟩, rfl, hb⟩ hw (fun _ hl => hd.range hl) hne, okV_of hx (hd.range hp), Bool.and_self, ResQ.chk_true, he]
  cases out with
  | clause h3 h' hc =>
    simp only []
    obtain ⟨q', e1, t⟩ := removeLitQ_ok (p := p) (l := l) (cid := cid) (e := e) (enqClause_to (n := (db1.clause cid).lits.length) (cid := cid) hq).ok
      (by rw [hcnf]; exact hd.range hp)
    have hcl := removeLitQ_cl e1
    rw [e1]
    refine .ok ⟨⟨⟨rfl, hx⟩, rfl⟩, rfl, ?_⟩
    simp only [] at hcl ⊢
    rw [hlen]
    exact (hb.enq ⟨hix.1, hix.2.1⟩).eq hcl
  | registered reg a b h2 hr h' h3 hc =>
    exact dropClause_simA (z := (((db1, s), e), q)) ⟨⟨⟨rfl, hx⟩, rfl⟩, rfl, by simp only []; rw [hlen]; exact hb⟩ w
      (by simp only []; rw [h']; exact fun l hl => hd.range hl) (by simp only []; rw [h']; exact hne)
  | unit a h2 h' hc =>
    have ha : a ∈ (db.clause cid).lits := by rcases h2 with h | h <;> rw [h] <;> simp
    simp only []
    have hw1 : (db1.log (.add [a])).WF := Cdb.wf_lits w (fun _ => ⟨rfl, rfl⟩) rfl rfl rfl rfl rfl
    have hne1 : ((db1.log (.add [a])).clause cid).lits ≠ [] := by show (db1.clause cid).lits ≠ []; rw [h']; simp
    have hr1 : ∀ l ∈ ((db1.log (.add [a])).clause cid).lits, 1 ≤ l.var ∧ l.var ≤ s.numVars := by
      show ∀ l ∈ (db1.clause cid).lits, _
      rw [h']
      intro l hl
      simp only [List.mem_cons, List.not_mem_nil, or_false] at hl
      rcases hl with rfl | rfl
      · exact hd.range ha
      · exact hd.range hp
    have hv1 : VarsIn p.cnf ((db1.log (.add [a])).clause cid).lits := fun l hl => by rw [hcnf]; exact hr1 l hl
    refine (dropClause_simA (z := (((db1.log (.add [a]), s), e), q)) (w := (((db1.log (.add [a]), x), e), q))
      ⟨⟨⟨rfl, hx⟩, rfl⟩, rfl, by show QB db1.len q; rw [hlen]; exact hb⟩ hw1 hr1 hne1).bind fun u v eu huv => ?_
    have hst : u.1.1.2 = s := by
      obtain ⟨u', eu', dr, -⟩ := dropClause_spec (x := (db1.log (.add [a]), s)) (e := e) hw1 hne1
      have hs := dropClauseQ_sim (y := ((db1.log (.add [a]), s), e)) (cid := cid) hq hv1
      simp only [] at hs
      rw [eu'] at hs
      obtain ⟨q', e2, -⟩ := hs
      rw [eu] at e2
      cases e2
      exact dr.stk
    have h1 := huv.r.d.rel
    have hra : 1 ≤ a.var ∧ a.var ≤ u.1.1.2.numVars := by rw [hst]; exact hd.range ha
    have e2 : v.1.1.2.s.val = u.1.1.2.val := by rw [← h1.same]; rfl
    rw [okV_of h1 hra, ResQ.chk_true, e2]
    cases u.1.1.2.val a with
    | none =>
      rw [huv.r.d.db]
      refine (assignRootRes_sim h1 _ hra).bind fun c d ec hcd => .ok ⟨⟨hcd, huv.r.e⟩, huv.q, ?_⟩
      simp only []
      rw [assignRootRes_db ec]
      exact huv.b
    | some b =>
      cases b with
      | true => exact .ok huv
      | false => simp only []; rw [huv.r.d.db]; exact .unsat h1

theorem flagD {db : Cdb} (cid did : Nat) :
    Cdb.Flags db (if (db.clause did).learnt = true then db else db.setC cid { db.clause cid with learnt := false }) ∧
      (if (db.clause did).learnt = true then db else db.setC cid { db.clause cid with learnt := false }).len = db.len := by
  split
  · exact ⟨.refl _, rfl⟩
  · exact ⟨flags_setC rfl (by simp) rfl, rfl⟩

theorem trySubsume_simA {F : Form} {s0 : Stk} {recs : List Rec} {p : Lims} {item : QItem} {z : ES} {w : EQ} {did : Nat} (h : XRel z w) (g : GOK F s0 recs p z)
    (hi : ItemOK z item) (hd : (z.1.1.1.clause did).lits ≠ []) : RRel XRel (trySubsumeQ p z item did) (trySubsumeA p w item did) := by
  have hcnf : p.cnf = z.1.1.2.numVars := by rw [g.cnf, g.eok.nv]
  have hw := g.eok.rinv.wf
  have hdb := h.r.d.db
  cases item with
  | lit l =>
    unfold trySubsumeQ QStk.trySubsumeA
    simp only []
    rw [okCl_of h hw (EOK.range g did) hd, ResQ.chk_true, hdb]
    split
    · rename_i hm
      refine (strengthen_simA h hw g.eok.dom g.q hcnf hm).bind fun u v eu huv => ?_
      rw [huv.r.e, huv.q]
      have ha := g.asg hi
      have hs := strengthenQ_sim (y := z.1) (q := z.2) g.q hw hm (g.rng did)
      have hqu : QuOK p u.2 := by
        revert hs
        cases strengthen z.1.1 z.1.2 did l.neg with
        | ok y => rintro ⟨q', e2, t⟩; rw [show ((z.1, z.2) : ES) = z from rfl, eu] at e2; cases e2; exact t.ok
        | _ => intro hs; unfold QSim at hs; simp only [] at hs; rw [show ((z.1, z.2) : ES) = z from rfl, eu] at hs; cases hs
      obtain ⟨q', e1, t⟩ := enqVar_ok (e := u.1.2) (up := true) hqu ha.1 ha.2.1
      rw [e1]
      exact .ok ⟨⟨huv.r.d, huv.r.e⟩, rfl, huv.b.eq (enqVar_cl e1)⟩
    · exact .ok h
  | clause cid =>
    unfold trySubsumeQ QStk.trySubsumeA
    simp only []
    rw [okCl_of h hw (EOK.range g did) hd, okCl_of h hw (EOK.range g cid) hi, Bool.and_self, ResQ.chk_true, hdb]
    split
    · obtain ⟨hf, hl⟩ := flagD (db := z.1.1.1) cid did
      rw [h.r.e, h.q]
      refine dropClause_simA (z := (((_, z.1.1.2), z.1.2), z.2)) ⟨⟨⟨rfl, h.r.d.rel⟩, rfl⟩, rfl, ?_⟩ (hf.wf hw) ?_ ?_
      · simp only []; rw [hl]; exact h.b
      · simp only []; rw [hf.lits]; exact EOK.range g did
      · simp only []; rw [hf.lits]; exact hd
    · exact .ok h

theorem dropClauseQ_len {p : Lims} {z a : ES} {cid : Nat} (hw : z.1.1.1.WF) (e : dropClauseQ p z cid = .ok a) : a.1.1.1.len = z.1.1.1.len := by
  unfold dropClauseQ at e
  obtain ⟨r, -, e2⟩ := Res.bind_ok e
  obtain ⟨d, e3, e4⟩ := Res.bind_ok e2
  cases e4
  exact (Cdb.removeClause_spec ((flags_setLinked z.1.1.1 cid false).wf hw) (removeRes_ok e3).1).2.2.2.1

theorem strengthenQ_len {p : Lims} {z a : ES} {cid : Nat} {l : Lit} (hw : z.1.1.1.WF) (hp : l ∈ (z.1.1.1.clause cid).lits) (e : strengthenQ p z cid l = .ok a) :
    a.1.1.1.len = z.1.1.1.len := by
  obtain ⟨db1, rf, he, w, out, hk, hlr, hlen⟩ := Cdb.transformByElimination_spec hw hp
  unfold strengthenQ at e
  rw [he] at e
  cases out with
  | clause h3 h' hc =>
    obtain ⟨r, -, e2⟩ := Res.bind_ok e
    cases e2
    exact hlen
  | registered reg a b h2 hr' h' hne hc => rw [← hlen]; exact dropClauseQ_len (z := (((db1, _), _), _)) w e
  | unit a h2 h' hc =>
    simp only [] at e
    obtain ⟨u, e2, e3⟩ := Res.bind_ok e
    have hu := dropClauseQ_len (z := (((db1.log (.add [a]), _), _), _)) (Cdb.wf_lits w (fun _ => ⟨rfl, rfl⟩) rfl rfl rfl rfl rfl) e2
    rw [← hlen]
    split at e3
    · obtain ⟨x, e4, e5⟩ := Res.bind_ok e3
      cases e5
      simp only []
      rw [assignRootRes_db e4]; exact hu
    · cases e3; exact hu
    · simp at e3

theorem trySubsumeQ_len {p : Lims} {z a : ES} {item : QItem} {did : Nat} (hw : z.1.1.1.WF) (e : trySubsumeQ p z item did = .ok a) : a.1.1.1.len = z.1.1.1.len := by
  cases item with
  | lit l =>
    unfold trySubsumeQ at e
    simp only [] at e
    split at e
    · rename_i hm
      obtain ⟨u, e2, e3⟩ := Res.bind_ok e
      obtain ⟨q, -, e5⟩ := Res.bind_ok e3
      cases e5
      have := strengthenQ_len hw hm e2
      exact this
    · cases e; rfl
  | clause cid =>
    unfold trySubsumeQ at e
    simp only [] at e
    split at e
    · obtain ⟨hf, hl⟩ := flagD (db := z.1.1.1) cid did
      exact (dropClauseQ_len (z := (((_, _), _), _)) (hf.wf hw) e).trans hl
    · cases e; rfl

/-- With the flag. -/
def XRelB (u : ES × Bool) (v : EQ × Bool) : Prop := XRel u.1 v.1 ∧ v.2 = u.2

theorem scan_simA {F : Form} {s0 : Stk} {recs : List Rec} {p : Lims} {item : QItem} : ∀ {ds : List Nat} {z : ES} {w : EQ}, XRel z w → JOK F s0 recs p z → ItemOK z item →
    (∀ d ∈ ds, 1 ≤ d ∧ d < z.1.1.1.len) → RRel XRelB (scan p item ds z) (scanA p item ds w)
  | [], z, w, h, _, _, _ => .ok ⟨h, rfl⟩
  | did :: ds, z, w, h, j, hi, hds => by
    have hdb := h.r.d.db
    have hds' : ∀ d ∈ ds, 1 ≤ d ∧ d < z.1.1.1.len := fun d hd => hds d (by simp [hd])
    unfold scan scanA
    split
    · exact scan_simA h j hi hds'
    · rename_i hne
      rw [hdb, okC_of (hds did (by simp)), ResQ.chk_true, h.q]
      split
      · exact .ok ⟨⟨h.r, rfl, h.b⟩, rfl⟩
      · have h1 : GOK F s0 recs p (z.1, { z.2 with budget := z.2.budget - (z.1.1.1.clause did).lits.length }) :=
          j.g.queues ⟨j.g.q.wf, j.g.q.size, j.g.q.cls⟩ j.g.bwd
        have hx1 : XRel (z.1, { z.2 with budget := z.2.budget - (z.1.1.1.clause did).lits.length })
            (w.1, { z.2 with budget := z.2.budget - (z.1.1.1.clause did).lits.length }) := ⟨h.r, rfl, h.b⟩
        have hi1 : ItemOK (z.1, { z.2 with budget := z.2.budget - (z.1.1.1.clause did).lits.length }) item := by cases item <;> exact hi
        simp only []
        split
        · rename_i hd
          have hdl : (z.1.1.1.clause did).lits ≠ [] := by
            have := hd.1; simp only [Cl.dead] at this; intro e; rw [e] at this; simp at this
          refine (trySubsume_simA hx1 h1 hi1 hdl).bind fun a b ea hab => ?_
          obtain ⟨⟨g2, -, -, i2, -⟩, c2, o2⟩ := (trySubsumeQ_runs (K := True) h1 hi1 hne hdl).after ea j.c j.o
          refine scan_simA hab ⟨g2, c2, o2⟩ i2 fun d hd => ⟨(hds' d hd).1, ?_⟩
          rw [trySubsumeQ_len h1.eok.rinv.wf ea]
          exact (hds' d hd).2
        · exact scan_simA hx1 ⟨h1, j.c, j.o⟩ hi1 hds'

theorem sandbox_len {x a : DS} (h : KT x) (e : (propagateSandbox x.1 x.2).toRes = .ok a) : a.1.len = x.1.len := by
  have hg := propagateSandbox_good h.rinv
  cases hp : propagateSandbox x.1 x.2 with
  | ok db s =>
    rw [hp] at e hg
    cases e
    exact (hg.same h.rinv.wf).len
  | _ => rw [hp] at e; simp [PRes.toRes] at e

theorem propagate_simA {F : Form} {s0 : Stk} {recs : List Rec} {p : Lims} {z : ES} {w : EQ} (h : XRel z w) (j : JOK F s0 recs p z) :
    RRel XRel (propagateQ p z) (propagateA w) := by
  unfold propagateQ onState runCmd propagateA
  simp only []
  have hk : KT z.1.1 := .of j.c j.g.eok.dom
  have := sandbox_sim hk h.r.d
  have hlen := fun (a : DS) (e : (propagateSandbox z.1.1.1 z.1.1.2).toRes = .ok a) => sandbox_len hk e
  revert this hlen
  generalize (propagateSandbox z.1.1.1 z.1.1.2).toRes = r
  generalize PResQ.toRes (propagateSandboxQ w.1.1.1 w.1.1.2) = r'
  intro h1 hlen
  cases h1 with
  | @ok a b hab => exact .ok ⟨⟨hab, h.r.e⟩, h.q, by have := hlen a rfl; simp only []; rw [this]; exact h.b⟩
  | unsat h => exact .unsat h
  | err => exact .err
  | panic => exact .panic
  | fuel => exact .fuel

theorem retain_simA {z : ES} {w : EQ} {evo v : Nat} {sift : Bool} (h : XRel z w) (ho : OB z.1.1.1.len z.1.2) :
    RRel XRel (onState z (runCmd evo z.1 (.retain v sift))) (retainA v sift w) := by
  unfold onState runCmd retainA
  have hd := h.r.d
  simp only []
  rw [h.r.d.db, h.r.e]
  have : (z.1.2.pos v ++ z.1.2.neg v).all (okC z.1.1.1) = true := by
    rw [List.all_eq_true]
    intro c hc
    rcases List.mem_append.1 hc with hc | hc
    · exact okC_of (ho ⟨v, true⟩ c (by simpa [El.occ] using hc))
    · exact okC_of (ho ⟨v, false⟩ c (by simpa [El.occ] using hc))
  rw [this, ResQ.chk_true]
  exact .ok ⟨⟨hd, rfl⟩, h.q, h.b⟩

theorem bestLoop_blind {x : DS} {e : El} : ∀ {c : Cls} {b : Nat} {t : Int}, bestLoop (blind x) e c b t = bestLoop x e c b t
  | [], _, _ => rfl
  | l :: c, b, t => by
    unfold bestLoop
    rw [bestLoop_blind, bestLoop_blind]
    rfl

theorem bestVar_blind {p : Lims} {x : DS} {e : El} {q : Queues} {item : QItem} : bestVar p ((blind x, e), q) item = bestVar p ((x, e), q) item := by
  cases item with
  | lit l => rfl
  | clause cid =>
    unfold bestVar
    simp only [bestLoop_blind]
    rfl

theorem clearQueues_simA {p : Lims} {z : ES} {w : EQ} (h : XRel z w) (hq : QuOK p z.2) : RRel XRel (clearQueues z) (readA w clearQueues) := by
  obtain ⟨q1, e1, t1, c1, -⟩ := clearQueues_ok (z := z) hq
  obtain ⟨q2, e2, t2, c2, -⟩ := clearQueues_ok (z := ((blind z.1.1, z.1.2), z.2)) hq
  have : q1 = q2 := by
    have : ∀ y : ES, clearQueues y = ((clearClauses y.2).bind (clearVars y.1.2)).bind fun q => .ok (y.1, q) := by
      intro y; unfold clearQueues; rw [Res.bind_assoc]
    rw [this] at e1 e2
    obtain ⟨a, f1, f2⟩ := Res.bind_ok e1
    obtain ⟨b, f3, f4⟩ := Res.bind_ok e2
    rw [f1] at f3
    cases f3; cases f2; cases f4; rfl
  subst this
  unfold readA
  rw [h.view, e1, e2]
  refine .ok ⟨⟨⟨rfl, h.r.d.rel⟩, rfl⟩, rfl, fun c hc => by rw [show q1.clauses = [] from c1] at hc; simp at hc⟩

theorem nextItem_qb {n : Nat} {trail : List Lit} {q q1 : Queues} {item : QItem} (h : QB n q) (e : nextItem trail q = some (item, q1)) :
    QB n q1 ∧ ∀ c, item = .clause c → 1 ≤ c ∧ c < n := by
  unfold nextItem at e
  split at e
  · rename_i i is hc
    cases e
    refine ⟨fun c hm => h c (by rw [hc]; simp only [] at hm; simp [hm]), fun c hc' => h c (by rw [hc, ← hc']; simp)⟩
  · split at e
    · cases e; exact ⟨h, fun c hc => by cases hc⟩
    · cases e

theorem bwdLoop_simA {F : Form} {s0 : Stk} {recs : List Rec} {p : Lims} : ∀ {n : Nat} {z : ES} {w : EQ}, XRel z w → JOK F s0 recs p z →
    RRel XRel (bwdLoop p n z) (bwdLoopA p n w)
  | 0, _, _, _, _ => .fuel
  | n + 1, z, w, h, j => by
    have e1 : w.1.1.2.s.trail = z.1.1.2.trail := by rw [← h.r.d.rel.same]
    have e2 : w.1.1.2.s.remains = z.1.1.2.remains := by rw [← h.r.d.rel.same]; rfl
    unfold bwdLoop bwdLoopA
    rw [e1, e2, h.q]
    cases hnext : nextItem z.1.1.2.trail z.2 with
    | none =>
      simp only []
      split
      · exact propagate_simA h j
      · exact .ok h
    | some r =>
      obtain ⟨item, q1⟩ := r
      simp only []
      obtain ⟨g1, -, hlit, -⟩ := nextItem_spec (K := True) j.g hnext
      obtain ⟨b1, hcl⟩ := nextItem_qb h.b hnext
      have hx1 : XRel (z.1, q1) (w.1, q1) := ⟨h.r, rfl, b1⟩
      split
      · exact clearQueues_simA hx1 g1.q
      · have hitem : itemC w item = true := by
          cases item with
          | lit l =>
            have := j.g.asg (hlit l rfl)
            unfold itemC
            exact okV_of h.r.d.rel ⟨this.1, by rw [j.g.eok.nv, ← j.g.cnf]; exact this.2.1⟩
          | clause c =>
            unfold itemC
            rw [h.r.d.db]
            simp only []
            rw [okC_of (hcl c rfl), okLits_of h.r.d.rel (EOK.range j.g c), Bool.and_self]
        rw [hitem, ResQ.chk_true, hx1.view]
        simp only []
        rw [bestVar_blind]
        obtain ⟨bq, bcl, bbw, -, -, bne⟩ := bestVar_spec (item := item) g1 hlit
        have gb : GOK F s0 recs p (z.1, (bestVar p (z.1, q1) item).2) := g1.queues bq (by rw [bbw]; exact g1.bwd)
        have hxb : XRel (z.1, (bestVar p (z.1, q1) item).2) (w.1, (bestVar p (z.1, q1) item).2) := ⟨h.r, rfl, b1.eq bcl⟩
        change RRel XRel _ (if (bestVar p (z.1, q1) item).1 = 0 then _ else _)
        split
        · exact bwdLoop_simA hxb ⟨gb, j.c, j.o⟩
        · rename_i hb
          obtain ⟨hle, hit⟩ := bne hb
          split
          · exact .panic
          · refine (retain_simA hxb j.o).bind fun z1 w1 ez1 h1 => ?_
            obtain ⟨⟨g2, f1, f2⟩, c2, o2⟩ := (Runs.cmd (c := .retain _ false) (QSim.state (z := (z.1, (bestVar p (z.1, q1) item).2)) (Q := fun q => q = (bestVar p (z.1, q1) item).2) (runCmd p.evo z.1 _) rfl)
              (Q' := fun z1 => GOK F s0 recs p z1 ∧ z1.1.1 = z.1.1 ∧ z1.2 = (bestVar p (z.1, q1) item).2) fun y q e hq => by
                subst hq
                exact ⟨gb.cmd e bq gb.bwd, by cases e; rfl, rfl⟩).after ez1 j.c j.o
            have j2 : JOK F s0 recs p z1 := ⟨g2, c2, o2⟩
            have i1 : ItemOK z1 item := by cases item <;> (unfold ItemOK at *; rw [f1]; exact hit)
            rw [h1.r.e]
            have hids : ∀ d ∈ z1.1.2.pos (bestVar p (z.1, q1) item).1 ++ z1.1.2.neg (bestVar p (z.1, q1) item).1, 1 ≤ d ∧ d < z1.1.1.1.len := by
              intro c hc
              rcases List.mem_append.1 hc with hc | hc
              · exact o2 ⟨_, true⟩ c (by simpa [El.occ] using hc)
              · exact o2 ⟨_, false⟩ c (by simpa [El.occ] using hc)
            refine (scan_simA h1 j2 i1 hids).bind fun u v eu huv => ?_
            obtain ⟨⟨g3, -⟩, c3, o3⟩ := (scan_runs (K := True) g2 i1).after eu c2 o2
            obtain ⟨hx3, hb3⟩ := huv
            rw [hb3]
            split
            · exact .ok hx3
            · refine (retain_simA hx3 o3).bind fun z4 w4 ez4 h4 => ?_
              obtain ⟨g4, c4, o4⟩ := (Runs.cmd (c := .retain _ false) (QSim.state (z := u.1) (Q := fun q => q = u.1.2) (runCmd p.evo u.1.1 _) rfl)
                (Q' := fun z1 => GOK F s0 recs p z1) fun y q e hq => by
                  subst hq
                  exact g3.cmd e g3.q g3.bwd).after ez4 c3 o3
              exact bwdLoop_simA h4 ⟨g4, c4, o4⟩

theorem backward_simA {F : Form} {s0 : Stk} {recs : List Rec} {p : Lims} {z : ES} {w : EQ} (h : XRel z w) (j : JOK F s0 recs p z) :
    RRel XRel (backward p z) (backwardA p w) := by
  unfold backward backwardA
  rw [h.view]
  exact bwdLoop_simA h j

theorem backward_jok {F : Form} {s0 : Stk} {recs : List Rec} {p : Lims} {z a : ES} (j : JOK F s0 recs p z) (e : backward p z = .ok a) : JOK F s0 recs p a := by
  obtain ⟨b, c, o⟩ := (backward_runs (K := True) j.g).after e j.c j.o
  exact ⟨b.g, c, o⟩

end Splr
