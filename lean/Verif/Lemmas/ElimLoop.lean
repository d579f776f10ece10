import Verif.Model.ElimLoop
import Verif.Lemmas.EndsElim
import Verif.Lemmas.WatchElim
import Verif.Props.C42_Queue
/-! The eliminator with its queues does what the eliminator without them does: single steps. -/
namespace Splr
open Stk Heap

/-- The queues are in order: the heap is well-formed and the clause queue holds clauses only. -/
structure QuOK (p : Lims) (q : Queues) : Prop where
  wf : Wf q.vars.h
  size : q.vars.h.size = p.cnf + 1
  cls : ∀ i ∈ q.clauses, ∃ c, i = .clause c

/-- From `q` to `q'`: at most `k` clauses were queued. -/
structure QTo (p : Lims) (k : Nat) (q q' : Queues) : Prop where
  ok : QuOK p q'
  budget : q'.budget = q.budget
  bwd : q'.bwd = q.bwd
  len : q'.clauses.length ≤ q.clauses.length + k

theorem QTo.refl {p : Lims} {q : Queues} (h : QuOK p q) : QTo p 0 q q := ⟨h, rfl, rfl, by omega⟩

theorem QTo.trans {p : Lims} {a b : Nat} {q q1 q2 : Queues} (h1 : QTo p a q q1) (h2 : QTo p b q1 q2) : QTo p (a + b) q q2 :=
  ⟨h2.ok, h2.budget.trans h1.budget, h2.bwd.trans h1.bwd, by have := h1.len; have := h2.len; omega⟩

theorem QTo.le {p : Lims} {a b : Nat} {q q1 : Queues} (h1 : QTo p a q q1) (h : a ≤ b) : QTo p b q q1 :=
  ⟨h1.ok, h1.budget, h1.bwd, by have := h1.len; omega⟩

/-- The run `r` with queues ends as the run `r0` without, and the queues then satisfy `Q`. -/
def QSim (Q : Queues → Prop) (r : Res ES) : Res (DS × El) → Prop
  | .ok y => ∃ q, r = .ok (y, q) ∧ Q q
  | .unsat db s => r = .unsat db s
  | .err => r = .err
  | .panic => r = .panic
  | .fuel => r = .fuel

theorem QSim.bind {Q Q' : Queues → Prop} {r : Res ES} {r0 : Res (DS × El)} {f : ES → Res ES} {f0 : DS × El → Res (DS × El)} (h : QSim Q r r0)
    (hf : ∀ y q, r0 = .ok y → Q q → QSim Q' (f (y, q)) (f0 y)) : QSim Q' (r.bind f) (r0.bind f0) := by
  cases r0 with
  | ok y => obtain ⟨q, rfl, hq⟩ := h; exact hf y q rfl hq
  | unsat db s => cases h; rfl
  | err => cases h; rfl
  | panic => cases h; rfl
  | fuel => cases h; rfl

theorem QSim.mono {Q Q' : Queues → Prop} {r : Res ES} {r0 : Res (DS × El)} (h : QSim Q r r0) (hQ : ∀ q, Q q → Q' q) : QSim Q' r r0 := by
  cases r0 with
  | ok y => obtain ⟨q, rfl, hq⟩ := h; exact ⟨q, rfl, hQ q hq⟩
  | _ => exact h

theorem QSim.state {Q : Queues → Prop} {z : ES} (r0 : Res (DS × El)) (h : Q z.2) : QSim Q (onState z r0) r0 := by
  unfold onState
  cases r0 with
  | ok y => exact ⟨z.2, rfl, h⟩
  | _ => rfl

/-! ## queueing -/

theorem enqVar_ok {p : Lims} {e : El} {q : Queues} {v : Nat} {up : Bool} (h : QuOK p q) (h1 : 1 ≤ v) (h2 : v ≤ p.cnf) :
    ∃ q', enqVar p e q v up = .ok q' ∧ QTo p 0 q q' := by
  obtain ⟨o, vq, e1, w, s, -⟩ := occ_step e.worse h.wf h.size (.enqueue v (!e.aborted v && decide (e.act v < p.occ)) up) ⟨h1, h2⟩
  refine ⟨{ q with vars := vq }, ?_, ⟨w, s, h.cls⟩, rfl, rfl, by simp⟩
  unfold enqVar
  rw [if_neg (by omega), e1]

theorem enqClause_to {p : Lims} {n : Nat} {q : Queues} {cid : Nat} (h : QuOK p q) : QTo p 1 q (enqClause p n q cid) := by
  unfold enqClause
  split
  · exact (QTo.refl h).le (by omega)
  · refine ⟨⟨h.wf, h.size, fun i hi => ?_⟩, rfl, rfl, by simp⟩
    rcases List.mem_cons.1 hi with rfl | hi
    · exact ⟨cid, rfl⟩
    · exact h.cls i hi

theorem clearClauses_ok {p : Lims} {q : Queues} (h : QuOK p q) : ∃ q', clearClauses q = .ok q' ∧ QTo p 0 q q' ∧ q'.clauses = [] ∧ q'.vars = q.vars := by
  unfold clearClauses
  rw [if_neg]
  · exact ⟨_, rfl, ⟨⟨h.wf, h.size, by simp⟩, rfl, rfl, by simp⟩, rfl, rfl⟩
  · rw [List.any_eq_true]
    rintro ⟨i, hi, hb⟩
    obtain ⟨c, rfl⟩ := h.cls i hi
    simp at hb

theorem clearQueues_ok {p : Lims} {z : ES} (h : QuOK p z.2) :
    ∃ q', clearQueues z = .ok (z.1, q') ∧ QTo p 0 z.2 q' ∧ q'.clauses = [] ∧ q'.vars.h.len = 0 := by
  obtain ⟨q1, e1, t1, c1, -⟩ := clearClauses_ok h
  have h1 := t1.ok
  obtain ⟨o, vq, e2, w, s, -⟩ := occ_step z.1.2.worse h1.wf h1.size .clear trivial
  have hz : vq.h.len = 0 := by
    simp only [OccQ.step, Option.some.injEq, Prod.mk.injEq] at e2
    rw [← e2.2]; rfl
  refine ⟨{ q1 with vars := vq }, ?_, ⟨⟨w, s, h1.cls⟩, t1.budget, t1.bwd, t1.len⟩, c1, hz⟩
  unfold clearQueues clearVars
  rw [e1]
  simp only [Res.bind, e2]

/-! ## occurrence lists -/

/-- The literals are those of the variables `1..n`. -/
def VarsIn (n : Nat) (c : Cls) : Prop := ∀ l ∈ c, 1 ≤ l.var ∧ l.var ≤ n

theorem removeLitQ_ok {p : Lims} {l : Lit} {cid : Nat} {e : El} {q : Queues} (h : QuOK p q) (hl : 1 ≤ l.var ∧ l.var ≤ p.cnf) :
    ∃ q', removeLitQ p l cid e q = .ok (e.removeLit l cid, q') ∧ QTo p 0 q q' := by
  unfold removeLitQ
  split
  · rename_i ha
    exact ⟨q, by unfold El.removeLit; rw [if_pos ha], .refl h⟩
  · obtain ⟨q', e1, t⟩ := enqVar_ok (p := p) (e := e.removeLit l cid) (up := true) h hl.1 hl.2
    exact ⟨q', by rw [e1]; rfl, t⟩

theorem removeCidQ_ok {p : Lims} {asg : Nat → Option Bool} {cid : Nat} : ∀ {c : Cls} {e : El} {q : Queues}, QuOK p q → VarsIn p.cnf c →
    ∃ q', removeCidQ p asg cid c e q = .ok (e.removeCid asg cid c, q') ∧ QTo p 0 q q'
  | [], e, q, h, _ => ⟨q, rfl, .refl h⟩
  | l :: c, e, q, h, hr => by
    have hl := hr l (by simp)
    have hc : VarsIn p.cnf c := fun x hx => hr x (by simp [hx])
    unfold removeCidQ
    split
    · rename_i hn
      obtain ⟨q1, e1, t1⟩ := removeLitQ_ok (cid := cid) (e := e) h hl
      obtain ⟨q2, e2, t2⟩ := enqVar_ok (p := p) (e := e.removeLit l cid) (up := true) t1.ok hl.1 hl.2
      obtain ⟨q3, e3, t3⟩ := removeCidQ_ok (asg := asg) (cid := cid) (e := e.removeLit l cid) t2.ok hc
      refine ⟨q3, ?_, (t1.trans t2).trans t3⟩
      rw [e1]; simp only [Res.bind]; rw [e2]; simp only []; rw [e3]
      unfold El.removeCid; simp only [List.foldl_cons, hn, if_true]
    · rename_i hn
      obtain ⟨q3, e3, t3⟩ := removeCidQ_ok (asg := asg) (cid := cid) (e := e) h hc
      refine ⟨q3, ?_, t3⟩
      rw [e3]
      unfold El.removeCid; simp only [List.foldl_cons, hn]; rfl

theorem dropClauseQ_sim {p : Lims} {y : DS × El} {q : Queues} {cid : Nat} (h : QuOK p q) (hr : VarsIn p.cnf (y.1.1.clause cid).lits) :
    QSim (QTo p 0 q) (dropClauseQ p (y, q) cid) (dropClause y.1 y.2 cid) := by
  obtain ⟨q', e, t⟩ := removeCidQ_ok (asg := y.1.2.assign) (cid := cid) (e := y.2) h hr
  unfold dropClauseQ dropClause
  simp only []
  rw [e]
  simp only [Res.bind]
  cases hx : (y.1.1.setLinked cid false).removeRes y.1.2 cid with
  | ok x => exact ⟨q', rfl, t⟩
  | _ => rfl

theorem addLitsQ_ok {p : Lims} {el : Nat → Bool} {cid : Nat} : ∀ {c : Cls} {e : El} {q : Queues}, QuOK p q → VarsIn p.cnf c →
    ∃ q', addLitsQ p el cid c e q = .ok (c.foldl (El.addLit p.evo el cid) e, q') ∧ QTo p 0 q q'
  | [], e, q, h, _ => ⟨q, rfl, .refl h⟩
  | l :: c, e, q, h, hr => by
    have hl := hr l (by simp)
    have hc : VarsIn p.cnf c := fun x hx => hr x (by simp [hx])
    unfold addLitsQ
    split
    · exact addLitsQ_ok h hc
    · obtain ⟨q2, e2, t2⟩ := enqVar_ok (p := p) (e := e.addLit p.evo el cid l) (up := false) h hl.1 hl.2
      obtain ⟨q3, e3, t3⟩ := addLitsQ_ok (el := el) (cid := cid) (e := e.addLit p.evo el cid l) t2.ok hc
      refine ⟨q3, ?_, t2.trans t3⟩
      rw [e2]; simp only [Res.bind]; rw [e3]; rfl

theorem addCidQ_ok {p : Lims} {y : DS × El} {q : Queues} {cid : Nat} {b : Bool} (h : QuOK p q) (hr : VarsIn p.cnf (y.1.1.clause cid).lits) :
    ∃ q', addCidQ p (y, q) cid b = .ok (addCid p.evo y.1 y.2 cid, q') ∧ QTo p 1 q q' := by
  unfold addCidQ addCid
  simp only []
  split
  · exact ⟨q, rfl, (QTo.refl h).le (by omega)⟩
  · obtain ⟨q1, e1, t1⟩ := addLitsQ_ok (el := y.1.2.elim) (cid := cid) (e := y.2) h hr
    rw [e1]
    simp only [Res.bind]
    cases b with
    | false => exact ⟨q1, rfl, t1.le (by omega)⟩
    | true => exact ⟨_, rfl, t1.trans (enqClause_to t1.ok)⟩

/-! ## subsumption -/

theorem strengthenQ_sim {p : Lims} {y : DS × El} {q : Queues} {cid : Nat} {l : Lit} (h : QuOK p q) (hw : y.1.1.WF)
    (hl : l ∈ (y.1.1.clause cid).lits) (hr : VarsIn p.cnf (y.1.1.clause cid).lits) :
    QSim (QTo p 1 q) (strengthenQ p (y, q) cid l) (strengthen y.1 y.2 cid l) := by
  obtain ⟨db1, rf, he, w, out, hk, -⟩ := Cdb.transformByElimination_spec hw hl
  unfold strengthenQ strengthen
  simp only []
  rw [he]
  cases out with
  | clause h3 h' hc =>
    simp only []
    obtain ⟨q1, e1, t1⟩ := removeLitQ_ok (cid := cid) (e := y.2) (enqClause_to (n := (db1.clause cid).lits.length) (cid := cid) h).ok (hr l hl)
    rw [e1]
    exact ⟨q1, rfl, (enqClause_to h).trans t1⟩
  | registered reg a b h3 hr' h' h4 hc =>
    simp only []
    exact (dropClauseQ_sim (y := ((db1, y.1.2), y.2)) h (by simp only []; rw [h']; exact hr)).mono fun _ t => t.le (by omega)
  | unit a h3 h' hc =>
    simp only []
    refine QSim.bind (dropClauseQ_sim (y := ((db1.log (.add [a]), y.1.2), y.2)) h ?_) fun u q1 _ t => ?_
    · show VarsIn p.cnf (db1.clause cid).lits
      rw [h']
      rcases h3 with e | e <;> rw [e] at hr <;> intro x hx <;> exact hr x (by simp at hx ⊢; tauto)
    · simp only []
      cases hv : u.1.2.val a with
      | none =>
        simp only []
        cases ha : u.1.2.assignRootRes u.1.1 a with
        | ok x => exact ⟨q1, rfl, t.le (by omega)⟩
        | _ => rfl
      | some b => cases b <;> first | exact ⟨q1, rfl, t.le (by omega)⟩ | rfl

theorem tryLiftedQ_sim {p : Lims} {y : DS × El} {q : Queues} {l : Lit} {did : Nat} (h : QuOK p q) (hw : y.1.1.WF)
    (hr : VarsIn p.cnf (y.1.1.clause did).lits) (hv : 1 ≤ l.var ∧ l.var ≤ p.cnf) :
    QSim (QTo p 1 q) (trySubsumeQ p (y, q) (.lit l) did) (tryLifted y.1 y.2 l did) := by
  unfold trySubsumeQ tryLifted
  simp only []
  split
  · rename_i hm
    have := strengthenQ_sim h hw hm hr
    cases hs : strengthen y.1 y.2 did l.neg with
    | ok u =>
      rw [hs] at this
      obtain ⟨q1, e1, t1⟩ := this
      obtain ⟨q2, e2, t2⟩ := enqVar_ok (p := p) (e := u.2) (up := true) t1.ok hv.1 hv.2
      rw [e1]
      simp only [Res.bind]
      rw [e2]
      exact ⟨q2, rfl, t1.trans t2⟩
    | _ => rw [hs] at this; have this : _ = _ := this; rw [this]; rfl
  · exact ⟨q, rfl, (QTo.refl h).le (by omega)⟩

theorem trySubsumeQ_sim {p : Lims} {y : DS × El} {q : Queues} {cid did : Nat} (h : QuOK p q) (hr : VarsIn p.cnf (y.1.1.clause did).lits)
    (hne : cid ≠ did) : QSim (QTo p 0 q) (trySubsumeQ p (y, q) (.clause cid) did) (trySubsume y.1 y.2 cid did) := by
  unfold trySubsumeQ trySubsume
  simp only []
  split
  · refine dropClauseQ_sim (y := ((_, y.1.2), y.2)) h ?_
    simp only []
    split
    · exact hr
    · simp only [Cdb.setC, upd_of_ne _ _ (Ne.symm hne)]; exact hr
  · exact ⟨q, rfl, .refl h⟩

/-! ## elimination -/

theorem mem_mergeLits {v : Nat} {p q : Cls} {x : Lit} (h : x ∈ mergeLits v p q) : x ∈ p ∨ x ∈ q := by
  unfold mergeLits at h
  simp only [] at h
  split at h <;> split at h <;> simp at h <;> tauto

theorem newClause_rng {db db' : Cdb} {level : Nat → Nat} {vec : Cls} {b : Bool} {r : RefClause} {n : Nat} (h : ∀ i, VarsIn n (db.clause i).lits)
    (hv : VarsIn n vec) (e : db.newClause level vec b = some (db', r)) : ∀ i, VarsIn n (db'.clause i).lits := by
  unfold Cdb.newClause at e
  split at e
  · split at e
    · cases e; exact h
    · simp only [Option.some.injEq, Prod.mk.injEq] at e
      obtain ⟨e, -⟩ := e
      intro i
      rw [← e]
      have hat : ∀ (d : Cdb) (c : Nat) (x y : Lit) (b : Bool), (d.attach c x y b).clause = d.clause := by
        intro d c x y b; unfold Cdb.attach; split <;> rfl
      rw [hat]
      simp only [Cdb.alloc, Cdb.log]
      cases db.free with
      | nil =>
        simp only [upd_apply]
        split
        · exact hv
        · exact h i
      | cons c fr =>
        simp only [upd_apply]
        split
        · exact hv
        · exact h i
  · simp at e

/-- From `q` to `q'`: any number of clauses was queued. -/
def QTs (p : Lims) (q q' : Queues) : Prop := ∃ k, QTo p k q q'

theorem QTs.refl {p : Lims} {q : Queues} (h : QuOK p q) : QTs p q q := ⟨0, .refl h⟩

theorem QTs.ok {p : Lims} {q q' : Queues} (h : QTs p q q') : QuOK p q' := by obtain ⟨_, h⟩ := h; exact h.ok

theorem QTs.trans {p : Lims} {q q1 q2 : Queues} (h1 : QTs p q q1) (h2 : QTs p q1 q2) : QTs p q q2 := by
  obtain ⟨_, h1⟩ := h1; obtain ⟨_, h2⟩ := h2; exact ⟨_, h1.trans h2⟩

theorem resolveOneQ_sim {p : Lims} {v i j : Nat} {y : DS × El} {q : Queues} (h : QuOK p q) (hr : ∀ i, VarsIn p.cnf (y.1.1.clause i).lits) :
    QSim (QTs p q) (resolveOneQ p v i j (y, q)) (resolveOne p.evo v i j y) ∧
      ∀ z, resolveOne p.evo v i j y = .ok z → ∀ i, VarsIn p.cnf (z.1.1.clause i).lits := by
  have hm : VarsIn p.cnf (mergeLits v (y.1.1.clause i).lits (y.1.1.clause j).lits) := fun x hx => (mem_mergeLits hx).elim (hr i x) (hr j x)
  unfold resolveOneQ resolveOne
  simp only []
  revert hm
  generalize mergeLits v (y.1.1.clause i).lits (y.1.1.clause j).lits = vec
  intro hm
  rcases vec with _ | ⟨a, _ | ⟨b, tl⟩⟩
  · exact ⟨⟨q, rfl, .refl h⟩, fun z e => by cases e; exact hr⟩
  · simp only []
    cases y.1.2.val a with
    | none =>
      simp only []
      cases ha : y.1.2.assignRootRes (y.1.1.log (.add [a])) a with
      | ok x =>
        refine ⟨⟨q, rfl, .refl h⟩, fun z e => ?_⟩
        cases e
        have : x.1 = y.1.1.log (.add [a]) := by
          unfold Stk.assignRootRes at ha
          split at ha
          · cases ha; rfl
          · cases ha
        simp only [this]; exact hr
      | _ => exact ⟨rfl, fun z e => by simp [Res.bind] at e⟩
    | some b => cases b <;> first | exact ⟨⟨q, rfl, .refl h⟩, fun z e => by cases e; exact hr⟩ | exact ⟨rfl, fun z e => by simp at e⟩
  · simp only []
    cases hc : y.1.1.newClause y.1.2.level (a :: b :: tl) ((y.1.1.clause i).learnt && (y.1.1.clause j).learnt) with
    | none => exact ⟨rfl, fun z e => by simp at e⟩
    | some w =>
      obtain ⟨db1, rf⟩ := w
      have hr1 := newClause_rng hr hm hc
      cases rf with
      | clause ci =>
        simp only []
        obtain ⟨q1, e1, t1⟩ := addCidQ_ok (p := p) (y := ((db1, y.1.2), y.2)) (q := { q with flag := upd q.flag ci false }) (cid := ci) (b := true)
          ⟨h.wf, h.size, h.cls⟩ (hr1 ci)
        refine ⟨⟨q1, e1, _, ⟨t1.ok, t1.budget, t1.bwd, t1.len⟩⟩, fun z e => ?_⟩
        cases e
        intro i
        rw [(flags_addCid p.evo (db1, y.1.2) y.2 ci).lits]; exact hr1 i
      | _ => exact ⟨⟨q, rfl, .refl h⟩, fun z e => by cases e; exact hr1⟩

theorem resolveAllQ_sim {p : Lims} {v : Nat} : ∀ {ps : List (Nat × Nat)} {y : DS × El} {q : Queues}, QuOK p q → (∀ i, VarsIn p.cnf (y.1.1.clause i).lits) →
    QSim (QTs p q) (resolveAllQ p v ps (y, q)) (resolveAll p.evo v ps y) ∧
      ∀ z, resolveAll p.evo v ps y = .ok z → ∀ i, VarsIn p.cnf (z.1.1.clause i).lits
  | [], y, q, h, hr => ⟨⟨q, rfl, .refl h⟩, fun z e => by cases e; exact hr⟩
  | (i, j) :: ps, y, q, h, hr => by
    unfold resolveAllQ resolveAll
    obtain ⟨h1, h2⟩ := resolveOneQ_sim (v := v) (i := i) (j := j) h hr
    refine ⟨h1.bind fun y1 q1 e hq => (resolveAllQ_sim hq.ok (h2 y1 e)).1.mono fun _ h => hq.trans h, fun z e => ?_⟩
    obtain ⟨y1, e1, e2⟩ := Res.bind_ok e
    exact (resolveAllQ_sim h (h2 y1 e1)).2 z e2

theorem removeClause_lits {db db' : Cdb} {cid : Nat} (e : db.removeClause cid = some db') : ∀ i, ∀ l ∈ (db'.clause i).lits, l ∈ (db.clause i).lits := by
  unfold Cdb.removeClause at e
  split at e
  · simp only [Option.some.injEq] at e
    intro i l hl
    rw [← e] at hl
    simp only [Cdb.setC, Cdb.log, upd_apply] at hl
    split at hl
    · simp at hl
    · split at hl
      · exact hl
      · exact hl
  · simp at e

theorem dropClause_rng {n : Nat} {y : DS × El} {z : DS × El} {cid : Nat} (hr : ∀ i, VarsIn n (y.1.1.clause i).lits) (e : dropClause y.1 y.2 cid = .ok z) :
    ∀ i, VarsIn n (z.1.1.clause i).lits := by
  unfold dropClause at e
  simp only [] at e
  obtain ⟨x, e1, e2⟩ := Res.bind_ok e
  cases e2
  unfold Cdb.removeRes at e1
  split at e1
  · simp at e1
  · rename_i db1 e3
    cases e1
    intro i l hl
    have := removeClause_lits e3 i l hl
    rw [(flags_setLinked y.1.1 cid false).lits] at this
    exact hr i l this

theorem dropAllQ_sim {p : Lims} : ∀ {cids : List Nat} {y : DS × El} {q : Queues}, QuOK p q → (∀ i, VarsIn p.cnf (y.1.1.clause i).lits) →
    QSim (QTs p q) (dropAllQ p cids (y, q)) (dropAll cids y)
  | [], y, q, h, hr => ⟨q, rfl, .refl h⟩
  | c :: cids, y, q, h, hr => by
    unfold dropAllQ dropAll
    simp only []
    split
    · exact dropAllQ_sim h hr
    · exact (dropClauseQ_sim h (hr c)).bind fun y1 q1 e t => (dropAllQ_sim t.ok (dropClause_rng hr e)).mono fun _ h => QTs.trans ⟨_, t⟩ h

end Splr
