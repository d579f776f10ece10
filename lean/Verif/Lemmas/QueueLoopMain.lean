import Verif.Lemmas.QueueLoopVar
/-! The control loops of the eliminator with the array queue: the loops over variables and rounds. -/
namespace Splr
open QStk Heap

theorem XRel.queue {z : ES} {w : EQ} (h : XRel z w) {q : Queues} (hq : q.clauses = z.2.clauses) : XRel (z.1, q) (w.1, q) := ⟨h.r, rfl, h.b.eq hq⟩

theorem varFuel_blind {p : Lims} {x : DS} {e : El} {q : Queues} : varFuel p ((blind x, e), q) = varFuel p ((x, e), q) := rfl

theorem mainFuel_blind {x : DS} {e : El} {q : Queues} : mainFuel ((blind x, e), q) = mainFuel ((x, e), q) := rfl

theorem varLoop_simA {F : Form} {s0 : Stk} {recs : List Rec} {p : Lims} {skip : Nat → DS × El → Bool} (hp : 1 ≤ p.cnf) : ∀ {n : Nat} {z : ES} {w : EQ}, XRel z w →
    JOK F s0 recs p z → RRel XRel (varLoop p (blindSkip skip) n z) (varLoopA p skip n w)
  | 0, _, _, _, _ => .fuel
  | n + 1, z, w, h, j => by
    have hcnf : p.cnf = z.1.1.2.numVars := by rw [j.g.cnf, j.g.eok.nv]
    have e1 : w.1.1.2.s.elim = z.1.1.2.elim := by rw [← h.r.d.rel.same]
    have e2 : w.1.1.2.s.assign = z.1.1.2.assign := by rw [← h.r.d.rel.same]
    unfold varLoop varLoopA
    obtain ⟨o, vq, e, wf, s, sp⟩ := occ_step z.1.2.worse j.g.q.wf j.g.q.size (.pop z.1.1.2.elim) hp
    rw [e1, e2, h.q, h.r.e, e]
    have g1 : GOK F s0 recs p (z.1, { z.2 with vars := vq }) := j.g.queues ⟨wf, s, j.g.q.cls⟩ j.g.bwd
    have j1 : JOK F s0 recs p (z.1, { z.2 with vars := vq }) := j.queues g1
    have h1 : XRel (z.1, { z.2 with vars := vq }) (w.1, { z.2 with vars := vq }) := h.queue rfl
    cases o with
    | none => exact .ok h1
    | some v =>
      simp only [] at sp ⊢
      obtain ⟨v1, v2, v3, -, -⟩ := sp.2.2.1 v rfl
      rw [okV_of h.r.d.rel ⟨v1, by rw [← hcnf]; exact v2⟩, ResQ.chk_true]
      split
      · rename_i hv
        refine (eliminateVar_simA h1 j1 ⟨v1, v2⟩ hv.1 hv.2).bind fun a b ea hab => ?_
        obtain ⟨q, c, o⟩ := (eliminateVarQ_runs g1 ⟨v1, v2⟩ hv.1 hv.2).after ea j1.c j1.o
        exact varLoop_simA hp hab ⟨q.1, c, o⟩
      · exact varLoop_simA hp h1 j1

theorem varLoop_jok {F : Form} {s0 : Stk} {recs : List Rec} {p : Lims} {skip : Nat → DS × El → Bool} {z a : ES} (hp : 1 ≤ p.cnf) (j : JOK F s0 recs p z)
    (e : varLoop p skip (varFuel p z) z = .ok a) : JOK F s0 recs p a := by
  obtain ⟨b, c, o⟩ := (varLoop_runs hp j.g (varLoop_enough j.g)).after e j.c j.o
  exact ⟨b.1, c, o⟩

theorem propagateQ_jok {F : Form} {s0 : Stk} {recs : List Rec} {p : Lims} {z a : ES} (j : JOK F s0 recs p z) (e : propagateQ p z = .ok a) : JOK F s0 recs p a := by
  have : Runs p.evo z.1 (·.1) _ (propagateQ p z) := ⟨_, propagateQ_runs (K := True) j.g⟩
  obtain ⟨b, c, o⟩ := this.after e j.c j.o
  exact ⟨b.1, c, o⟩

theorem clearQueues_jok {F : Form} {s0 : Stk} {recs : List Rec} {p : Lims} {z a : ES} (j : JOK F s0 recs p z) (e : clearQueues z = .ok a) : JOK F s0 recs p a := by
  obtain ⟨q, e', g, -⟩ := clearQueues_runs (K := True) j.g
  rw [e'] at e
  cases e
  exact j.queues g

theorem mainLoop_simA {F : Form} {s0 : Stk} {recs : List Rec} {p : Lims} {skip : Nat → DS × El → Bool} (hp : 1 ≤ p.cnf) : ∀ {n : Nat} {z : ES} {w : EQ}, XRel z w →
    JOK F s0 recs p z → RRel XRel (mainLoop p (blindSkip skip) n z) (mainLoopA p skip n w)
  | 0, _, _, _, _ => .fuel
  | n + 1, z, w, h, j => by
    have et : w.1.1.2.s.trail = z.1.1.2.trail := by rw [← h.r.d.rel.same]
    unfold mainLoop mainLoopA
    rw [et, h.q]
    split
    swap
    · exact .ok h
    have first : RRel XRel (if z.2.clauses ≠ [] ∨ z.2.bwd < z.1.1.2.trail.length then backward p z else .ok z)
        (if z.2.clauses ≠ [] ∨ z.2.bwd < z.1.1.2.trail.length then backwardA p w else .ok w) := by
      split
      · exact backward_simA h j
      · exact .ok h
    refine first.bind fun z1 w1 ez1 h1 => ?_
    have j1 : JOK F s0 recs p z1 := by
      split at ez1
      · exact backward_jok j ez1
      · cases ez1; exact j
    rw [h1.view, varFuel_blind]
    refine (varLoop_simA hp h1 j1).bind fun z2 w2 ez2 h2 => ?_
    have j2 := varLoop_jok hp j1 ez2
    refine (backward_simA h2 j2).bind fun z3 w3 ez3 h3 => ?_
    have j3 := backward_jok j2 ez3
    refine (propagate_simA h3 j3).bind fun z4 w4 ez4 h4 => ?_
    have j4 := propagateQ_jok j3 ez4
    rw [h4.q]
    split
    · refine (clearQueues_simA h4 j4.g.q).bind fun z5 w5 ez5 h5 => ?_
      exact mainLoop_simA hp h5 (clearQueues_jok j4 ez5)
    · exact mainLoop_simA hp (h4.queue rfl) (j4.queues (j4.g.queues ⟨j4.g.q.wf, j4.g.q.size, j4.g.q.cls⟩ j4.g.bwd))

theorem mainLoop_simB {F : Form} {s0 : Stk} {recs : List Rec} {p : Lims} {skip : Nat → DS × El → Bool} {z : ES} {w : EQ} (h : XRel z w) (j : JOK F s0 recs p z)
    (hz : p.cnf = 0 → z.2.clauses = []) : RRel XRel (mainLoop p (blindSkip skip) (mainFuel z) z) (mainLoopA p skip (mainFuel z) w) := by
  by_cases hp : 1 ≤ p.cnf
  · exact mainLoop_simA hp h j
  · have et : w.1.1.2.s.trail = z.1.1.2.trail := by rw [← h.r.d.rel.same]
    have hc := hz (by omega)
    have ht := j.g.trail
    have hl : z.2.vars.h.len = 0 := by have := j.g.q.wf.len_lt; have := j.g.q.size; unfold Heap.VarHeap.len; omega
    unfold mainFuel mainLoop mainLoopA
    rw [et, h.q, if_neg, if_neg]
    · exact .ok h
    all_goals
      simp only [not_or, not_not, not_lt]
      exact ⟨by omega, hl, hc⟩

theorem elimLoop_simA {F : Form} {s0 : Stk} {recs : List Rec} {p : Lims} {skip : Nat → DS × El → Bool} {budget : DS → Nat} {late : Nat → Bool} :
    ∀ {n k : Nat} {z : ES} {w : EQ}, XRel z w → JOK F s0 recs p z → (p.cnf = 0 → z.2.clauses = []) →
    RRel XRel (elimLoop p (blindSkip skip) (fun x => budget (blind x)) late n k z) (elimLoopA p skip budget late n k w)
  | 0, _, _, _, _, _, _ => .fuel
  | n + 1, k, z, w, h, j, hz => by
    have et : w.1.1.2.s.trail = z.1.1.2.trail := by rw [← h.r.d.rel.same]
    unfold elimLoop elimLoopA
    simp only []
    rw [h.view, et, h.q]
    simp only []
    have h0 : XRel (z.1, { z.2 with budget := budget (blind z.1.1) }) (w.1, { z.2 with budget := budget (blind z.1.1) }) := h.queue rfl
    have g0 : GOK F s0 recs p (z.1, { z.2 with budget := budget (blind z.1.1) }) := j.g.queues ⟨j.g.q.wf, j.g.q.size, j.g.q.cls⟩ j.g.bwd
    have j0 := j.queues g0
    have hf : mainFuel (view (w.1, { z.2 with budget := budget (blind z.1.1) })) = mainFuel (z.1, { z.2 with budget := budget (blind z.1.1) }) := by
      rw [h0.view]; rfl
    rw [hf]
    refine (mainLoop_simB h0 j0 hz).bind fun z1 w1 ez1 h1 => ?_
    have hm : Runs _ _ _ _ _ := mainLoop_start (skip := blindSkip skip) j.g hz (b := budget (blind z.1.1))
    obtain ⟨⟨g1, -, v1, c1, -⟩, cc1, o1⟩ := hm.after ez1 j.c j.o
    have j1 : JOK F s0 recs p z1 := ⟨g1, cc1, o1⟩
    refine (propagate_simA h1 j1).bind fun z2 w2 ez2 h2 => ?_
    have j2 := propagateQ_jok j1 ez2
    have et2 : w2.1.1.2.s.trail = z2.1.1.2.trail := by rw [← h2.r.d.rel.same]
    rw [et2, h2.q]
    split
    · exact .ok h2
    · split
      · exact clearQueues_simA h2 j2.g.q
      · refine elimLoop_simA h2 j2 fun _ => ?_
        have hpq := propagateQ_runs (K := True) g1
        rw [ez2] at hpq
        obtain ⟨-, -, -, -, q2⟩ := hpq
        rw [q2]; exact c1

theorem eliminate_simA {F : Form} {s0 : Stk} {recs : List Rec} {p : Lims} {skip : Nat → DS × El → Bool} {budget : DS → Nat} {late : Nat → Bool} {z : ES} {w : EQ}
    (h : XRel z w) (j : JOK F s0 recs p z) (hz : z.2.clauses = []) :
    RRel XRel (eliminateQ p (blindSkip skip) (fun x => budget (blind x)) late z) (eliminateA p skip budget late w) := by
  unfold eliminateQ eliminateA
  rw [show w.1.1.2.s.numVars = z.1.1.2.numVars by rw [← h.r.d.rel.same]]
  exact elimLoop_simA h j fun _ => hz

/-- The choices of the eliminator as functions of what can be read. -/
def Ctl.blind (c : Ctl) : Ctl := { c with skip := blindSkip c.skip, budget := fun x => c.budget (Splr.blind x) }

theorem simplify_simA {F : Form} {s0 : Stk} {recs : List Rec} {p : Lims} {c : Ctl} {oom : Bool} {z : ES} {w : EQ} (h : XRel z w) (j : JOK F s0 recs p z)
    (hz : z.2.clauses = []) : RRel ERel (simplifyQ p c.blind oom z) (simplifyA p c oom w) := by
  unfold simplifyQ simplifyA
  refine (eliminate_simA h j hz).bind fun a b _ hab => ?_
  split
  · exact .err
  · rw [hab.r.d.db, hab.r.e]
    exact .ok ⟨⟨rfl, hab.r.d.rel⟩, rfl⟩

end Splr
