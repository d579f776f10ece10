import Verif.Lemmas.ElimTrail
/-! The control loops of the eliminator end, and issue commands only. -/
namespace Splr
open Stk Heap

/-- The run `r` from `y` issues the commands `cs`; if it ends well then `Q`. -/
def RunsW {α : Type} (evo : Nat) (cs : List ECmd) (y : DS × El) (st : α → DS × El) (Q : α → Prop) : Res α → Prop
  | .ok a => runCmds evo cs y = .ok (st a) ∧ Q a
  | .unsat db s => runCmds evo cs y = .unsat db s
  | .err => runCmds evo cs y = .err
  | .panic => runCmds evo cs y = .panic
  | .fuel => runCmds evo cs y = .fuel

/-- It issues some commands. -/
def Runs {α : Type} (evo : Nat) (y : DS × El) (st : α → DS × El) (Q : α → Prop) (r : Res α) : Prop := ∃ cs, RunsW evo cs y st Q r

theorem Runs.ok {α : Type} {evo : Nat} {y : DS × El} {st : α → DS × El} {Q : α → Prop} {a : α} (h : st a = y) (hq : Q a) : Runs evo y st Q (.ok a) :=
  ⟨[], by rw [← h]; exact ⟨rfl, hq⟩⟩

theorem RunsW.bind {α β : Type} {evo : Nat} {cs ds : List ECmd} {y : DS × El} {st : α → DS × El} {st' : β → DS × El} {Q : α → Prop} {Q' : β → Prop} {r : Res α} {f : α → Res β}
    (h : RunsW evo cs y st Q r) (hf : ∀ a, r = .ok a → Q a → RunsW evo ds (st a) st' Q' (f a)) : RunsW evo (cs ++ ds) y st' Q' (r.bind f) := by
  cases r with
  | ok a =>
    obtain ⟨h1, h2⟩ := h
    have := hf a rfl h2
    simp only [Res.bind]
    revert this
    cases f a with
    | ok b => exact fun h => ⟨by rw [runCmds_append, h1]; exact h.1, h.2⟩
    | _ => exact fun h => show runCmds _ _ _ = _ by rw [runCmds_append, h1]; exact h
  | _ => exact show runCmds _ _ _ = _ by rw [runCmds_append, show runCmds _ _ _ = _ from h]; rfl

theorem Runs.bind {α β : Type} {evo : Nat} {y : DS × El} {st : α → DS × El} {st' : β → DS × El} {Q : α → Prop} {Q' : β → Prop} {r : Res α} {f : α → Res β}
    (h : Runs evo y st Q r) (hf : ∀ a, Q a → Runs evo (st a) st' Q' (f a)) : Runs evo y st' Q' (r.bind f) := by
  obtain ⟨cs, h⟩ := h
  cases r with
  | ok a =>
    obtain ⟨ds, h'⟩ := hf a h.2
    exact ⟨cs ++ ds, h.bind fun b e _ => by cases e; exact h'⟩
  | _ => exact ⟨cs, h⟩

theorem Runs.mono {α : Type} {evo : Nat} {y : DS × El} {st : α → DS × El} {Q Q' : α → Prop} {r : Res α} (h : Runs evo y st Q r) (hq : ∀ a, Q a → Q' a) :
    Runs evo y st Q' r := by
  obtain ⟨cs, h⟩ := h
  refine ⟨cs, ?_⟩
  cases r with
  | ok a => exact ⟨h.1, hq a h.2⟩
  | _ => exact h

/-- One command. -/
theorem Runs.cmd {evo : Nat} {y : DS × El} {c : ECmd} {Q : Queues → Prop} {Q' : ES → Prop} {r : Res ES} (h : QSim Q r (runCmd evo y c))
    (hq : ∀ y' q, runCmd evo y c = .ok y' → Q q → Q' (y', q)) : Runs evo y (·.1) Q' r := by
  refine ⟨[c], ?_⟩
  have e1 : runCmds evo [c] y = runCmd evo y c := by
    simp only [runCmds]; cases runCmd evo y c <;> rfl
  cases hc : runCmd evo y c with
  | ok y' =>
    rw [hc] at h
    obtain ⟨q, rfl, hQ⟩ := h
    exact ⟨by rw [e1, hc], hq y' q hc hQ⟩
  | _ => rw [hc] at h; cases h; exact show runCmds _ _ _ = _ by rw [e1, hc]

theorem Runs.ends {α : Type} {F : Form} {s0 : Stk} {recs : List Rec} {evo : Nat} {y : DS × El} {st : α → DS × El} {Q : α → Prop} {r : Res α}
    (h : Runs evo y st Q r) (hy : EOK F s0 recs y) (hf : Few s0) : r.Ends := by
  obtain ⟨cs, h⟩ := h
  have := runCmds_ends (evo := evo) hf (cs := cs) hy
  cases r with
  | ok _ => trivial
  | unsat _ _ => trivial
  | err => trivial
  | panic => rw [show runCmds _ _ _ = _ from h] at this; exact this
  | fuel => rw [show runCmds _ _ _ = _ from h] at this; exact this

/-! ## invariants -/

/-- The state between two steps. -/
structure GOK (F : Form) (s0 : Stk) (recs : List Rec) (p : Lims) (z : ES) : Prop where
  eok : EOK F s0 recs z.1
  q : QuOK p z.2
  cnf : p.cnf = s0.numVars
  bwd : z.2.bwd ≤ z.1.1.2.trail.length

/-- From `z` to `z'`; under the condition `K` no clause gets too long to be used. -/
structure Step0 (K : Prop) (p : Lims) (z z' : ES) : Prop where
  grow : Grow z.1 z'.1
  budget : z'.2.budget ≤ z.2.budget
  bwd : z.2.bwd ≤ z'.2.bwd
  sh : K → Short p.sub z.1.1.1 → Short p.sub z'.1.1.1

/-- The literals of the trail that were used are false in no clause. -/
def Lifted (z : ES) : Prop := ∀ i < z.2.bwd, ∀ l, z.1.1.2.trail[i]? = some l → ∀ d, l.neg ∉ (z.1.1.1.clause d).lits

/-- All of them were lifted, or a limit was reached; `b`: the number of those used when the budget was set. -/
def LB (p : Lims) (b : Nat) (z : ES) : Prop :=
  (∃ v ≤ p.cnf, z.1.2.aborted v = true) ∨ (Short p.sub z.1.1.1 ∧ Lifted z) ∨ (z.2.budget = 0 ∧ b < z.2.bwd)

/-- From `z` to `z'`, and the literals used are lifted. -/
structure Step (K : Prop) (p : Lims) (z z' : ES) : Prop extends Step0 K p z z' where
  lift : K → ∀ b ≤ z.2.bwd, LB p b z → LB p b z'

theorem Step0.trans {K : Prop} {p : Lims} {a b c : ES} (h1 : Step0 K p a b) (h2 : Step0 K p b c) : Step0 K p a c :=
  ⟨h1.grow.trans h2.grow, Nat.le_trans h2.budget h1.budget, Nat.le_trans h1.bwd h2.bwd, fun k h => h2.sh k (h1.sh k h)⟩

theorem Step.trans {K : Prop} {p : Lims} {a b c : ES} (h1 : Step K p a b) (h2 : Step K p b c) : Step K p a c :=
  ⟨h1.toStep0.trans h2.toStep0, fun hK k hk h => h2.lift hK k (Nat.le_trans hk h1.bwd) (h1.lift hK k hk h)⟩

theorem Lifted.grow {z z' : ES} (h : Lifted z) (g : Grow z.1 z'.1) (hb : z.2.bwd ≤ z.1.1.2.trail.length) :
    ∀ i < z.2.bwd, ∀ l, z'.1.1.2.trail[i]? = some l → ∀ d, l.neg ∉ (z'.1.1.1.clause d).lits := by
  intro i hi l hl d hd
  obtain ⟨t, ht⟩ := g.lng.tr
  rw [← ht, List.getElem?_append_left (by omega)] at hl
  obtain ⟨d', hd'⟩ := g.sup l.neg ⟨d, hd⟩
  exact h i hi l hl d' hd'

/-- If no literal of the trail is taken, nothing changes. -/
theorem Step0.step {K : Prop} {p : Lims} {z z' : ES} (h : Step0 K p z z') (hb : z.2.bwd ≤ z.1.1.2.trail.length) (e : z'.2.bwd = z.2.bwd) : Step K p z z' := by
  refine ⟨h, fun hK b _ hL => ?_⟩
  rcases hL with ⟨v, hc, hv⟩ | ⟨hs, hl⟩ | ⟨h1, h2⟩
  · exact .inl ⟨v, hc, h.grow.ab v hv⟩
  · refine .inr (.inl ⟨h.sh hK hs, fun i hi => ?_⟩)
    rw [e] at hi
    exact hl.grow h.grow hb i hi
  · exact .inr (.inr ⟨by have := h.budget; omega, by omega⟩)

/-- If one literal of the trail is taken, it is lifted or a limit is reached. -/
theorem Step0.taken {K : Prop} {p : Lims} {z z' : ES} (h : Step0 K p z z') (hb : z.2.bwd ≤ z.1.1.2.trail.length) {l : Lit} (hl : z.1.1.2.trail[z.2.bwd]? = some l)
    (e : z'.2.bwd = z.2.bwd + 1)
    (hd : Short p.sub z.1.1.1 → (∃ v ≤ p.cnf, z'.1.2.aborted v = true) ∨ (∀ d, l.neg ∉ (z'.1.1.1.clause d).lits) ∨ z'.2.budget = 0) : Step K p z z' := by
  refine ⟨h, fun hK b hbz hL => ?_⟩
  rcases hL with ⟨v, hc, hv⟩ | ⟨hs, hli⟩ | ⟨h1, h2⟩
  · exact .inl ⟨v, hc, h.grow.ab v hv⟩
  · rcases hd hs with hd | hd | hd
    · exact .inl hd
    · refine .inr (.inl ⟨h.sh hK hs, fun i hi => ?_⟩)
      rw [e] at hi
      by_cases hi' : i < z.2.bwd
      · exact hli.grow h.grow hb i hi'
      · have : i = z.2.bwd := by omega
        subst this
        intro m hm d
        obtain ⟨t, ht⟩ := h.grow.lng.tr
        obtain ⟨hlt, -⟩ := List.getElem?_eq_some_iff.1 hl
        rw [← ht, List.getElem?_append_left hlt, hl] at hm
        cases hm
        exact hd d
    · exact .inr (.inr ⟨hd, by omega⟩)
  · exact .inr (.inr ⟨by have := h.budget; omega, by omega⟩)

theorem GOK.refl0 {F : Form} {s0 : Stk} {recs : List Rec} {K : Prop} {p : Lims} {z : ES} (h : GOK F s0 recs p z) : Step0 K p z z :=
  ⟨.refl h.eok.lim, Nat.le_refl _, Nat.le_refl _, fun _ h => h⟩

theorem GOK.refl {F : Form} {s0 : Stk} {recs : List Rec} {K : Prop} {p : Lims} {z : ES} (h : GOK F s0 recs p z) : Step K p z z := h.refl0.step h.bwd rfl

theorem GOK.rng {F : Form} {s0 : Stk} {recs : List Rec} {p : Lims} {z : ES} (h : GOK F s0 recs p z) : ∀ i, VarsIn p.cnf (z.1.1.1.clause i).lits := by
  intro i l hl
  have := h.eok.dom.cl i l hl
  rw [h.cnf, ← h.eok.nv]; exact ⟨this.1, this.2.1⟩

theorem GOK.asg {F : Form} {s0 : Stk} {recs : List Rec} {p : Lims} {z : ES} (h : GOK F s0 recs p z) {l : Lit} (hl : l ∈ z.1.1.2.trail) :
    1 ≤ l.var ∧ l.var ≤ p.cnf ∧ z.1.1.2.elim l.var = false := by
  have := h.eok.dom.as _ (tr_assigned (h.eok.rinv.inv.tv l hl))
  rw [h.cnf, ← h.eok.nv]; exact this

theorem GOK.trail {F : Form} {s0 : Stk} {recs : List Rec} {p : Lims} {z : ES} (h : GOK F s0 recs p z) : z.1.1.2.trail.length ≤ p.cnf := by
  rw [h.cnf, ← h.eok.nv]; exact trail_le h.eok.rinv.inv h.eok.dom

theorem GOK.queues {F : Form} {s0 : Stk} {recs : List Rec} {p : Lims} {z : ES} (h : GOK F s0 recs p z) {q : Queues} (hq : QuOK p q) (hb : q.bwd ≤ z.1.1.2.trail.length) :
    GOK F s0 recs p (z.1, q) := ⟨h.eok, hq, h.cnf, hb⟩

/-- After a command the invariant holds again. -/
theorem GOK.cmd {F : Form} {s0 : Stk} {recs : List Rec} {p : Lims} {z : ES} (h : GOK F s0 recs p z) {c : ECmd} {y : DS × El} (e : runCmd p.evo z.1 c = .ok y)
    {q : Queues} (hq : QuOK p q) (hb : q.bwd ≤ z.1.1.2.trail.length) : GOK F s0 recs p (y, q) := by
  have := runCmd_spec (evo := p.evo) h.eok c
  rw [e] at this
  exact ⟨this, hq, h.cnf, Nat.le_trans hb (runCmd_grow h.eok e).1.lng.tr.length_le⟩

theorem propagateQ_runs {F : Form} {s0 : Stk} {recs : List Rec} {K : Prop} {p : Lims} {z : ES} (h : GOK F s0 recs p z) :
    RunsW p.evo [.propagate] z.1 (·.1) (fun z' => GOK F s0 recs p z' ∧ Step K p z z' ∧ z'.1.1.2.elim = z.1.1.2.elim ∧ z'.2 = z.2) (propagateQ p z) := by
  unfold propagateQ onState
  have e1 : runCmds p.evo [.propagate] z.1 = runCmd p.evo z.1 .propagate := by
    simp only [runCmds]; cases runCmd p.evo z.1 .propagate <;> rfl
  cases hc : runCmd p.evo z.1 .propagate with
  | ok y =>
    have hg := runCmd_grow h.eok hc
    have gc := h.cmd hc h.q h.bwd
    exact ⟨by rw [e1, hc], gc, Step0.step ⟨hg.1, Nat.le_refl _, Nat.le_refl _, fun _ => (runCmd_shr h.eok.rinv hc (by simp)).short gc.eok.rinv.wf⟩ h.bwd rfl, hg.2 (by simp), rfl⟩
  | _ => exact show runCmds _ _ _ = _ by rw [e1, hc]

theorem clearQueues_runs {F : Form} {s0 : Stk} {recs : List Rec} {K : Prop} {p : Lims} {z : ES} (h : GOK F s0 recs p z) :
    ∃ q, clearQueues z = .ok (z.1, q) ∧ GOK F s0 recs p (z.1, q) ∧ Step K p z (z.1, q) ∧ q.clauses = [] ∧ q.vars.h.len = 0 ∧ q.budget = z.2.budget ∧ q.bwd = z.2.bwd := by
  obtain ⟨q, e, t, c, v⟩ := clearQueues_ok h.q
  exact ⟨q, e, h.queues t.ok (by rw [t.bwd]; exact h.bwd), Step0.step ⟨.refl h.eok.lim, by simp [t.budget], by simp [t.bwd], fun _ h => h⟩ h.bwd t.bwd, c, v, t.budget, t.bwd⟩

/-! ## backward subsumption -/

/-- What `bwdLoop` uses up. -/
def work (z : ES) : Nat := 3 * z.2.budget + z.2.clauses.length + 2 * z.1.1.2.trail.length

/-- The item can be tried against other clauses. -/
def ItemOK (z : ES) : QItem → Prop
  | .clause cid => (z.1.1.1.clause cid).lits ≠ []
  | .lit l => l ∈ z.1.1.2.trail

theorem trySubsumeQ_runs {F : Form} {s0 : Stk} {recs : List Rec} {K : Prop} {p : Lims} {item : QItem} {z : ES} {did : Nat} (h : GOK F s0 recs p z) (hi : ItemOK z item)
    (hne : item ≠ .clause did) (hd : (z.1.1.1.clause did).lits ≠ []) :
    Runs p.evo z.1 (·.1) (fun z' => GOK F s0 recs p z' ∧ Step0 K p z z' ∧ z'.1.1.2.elim = z.1.1.2.elim ∧ ItemOK z' item ∧ work z' ≤ work z + 3 ∧
      z'.2.bwd = z.2.bwd ∧ z'.2.budget = z.2.budget ∧ Shr z.1.1.1 z'.1.1.1 ∧ ∀ l, item = .lit l → l.neg ∉ (z'.1.1.1.clause did).lits) (trySubsumeQ p z item did) := by
  cases item with
  | clause cid =>
    have hcd : cid ≠ did := fun e => hne (by rw [e])
    have hcmd : runCmd p.evo z.1 (.subsume cid did) = trySubsume z.1.1 z.1.2 cid did := by
      simp only [runCmd]
      rw [if_neg]
      simp only [not_or, Cl.dead, List.isEmpty_iff]
      exact ⟨hcd, hi, hd⟩
    refine Runs.cmd (c := .subsume cid did) (Q := QTo p 0 z.2) (by rw [hcmd]; exact trySubsumeQ_sim h.q (h.rng did) hcd) fun y q e t => ?_
    have hg := runCmd_grow h.eok e
    have hst : y.1.2 = z.1.1.2 := trySubsume_stk (hcmd ▸ e)
    have gc := h.cmd e t.ok (by rw [t.bwd]; exact h.bwd)
    refine ⟨gc, ⟨hg.1, by simp [t.budget], by simp [t.bwd], fun _ => (runCmd_shr h.eok.rinv e (by simp)).short gc.eok.rinv.wf⟩, hg.2 (by simp), ?_, ?_, t.bwd, t.budget, (trySubsume_shr (hcmd ▸ e)).1, by simp⟩
    · show (y.1.1.clause cid).lits ≠ []
      rw [hcmd] at e
      unfold trySubsume at e
      split at e
      · have hf : Cdb.Flags z.1.1.1 (if (z.1.1.1.clause did).learnt = true then z.1.1.1 else z.1.1.1.setC cid { z.1.1.1.clause cid with learnt := false }) := by
          split
          · exact .refl _
          · exact flags_setC rfl (by simp) rfl
        simp only [] at e hf
        revert e hf
        generalize (if (z.1.1.1.clause did).learnt = true then z.1.1.1 else _) = db1
        intro e hf
        obtain ⟨y', e', d, -⟩ := dropClause_spec (x := (db1, z.1.1.2)) (e := z.1.2) (hf.wf h.eok.rinv.wf) (cid := did) (by simp only []; rw [hf.lits]; exact hd)
        rw [e'] at e
        cases e
        rw [d.keep cid hcd]
        simp only []
        rw [hf.lits]; exact hi
      · cases e; exact hi
    · unfold work
      have := t.len
      simp only [hst, t.budget]
      omega
  | lit l =>
    have hl : l ∈ z.1.1.2.trail := hi
    have hcmd : runCmd p.evo z.1 (.lifted l did) = tryLifted z.1.1 z.1.2 l did := by
      simp only [runCmd]
      rw [if_neg]
      simp only [not_or, Cl.dead, List.isEmpty_iff, not_not]
      exact ⟨hl, hd⟩
    have ha := h.asg hl
    refine Runs.cmd (c := .lifted l did) (Q := QTo p 1 z.2) (by rw [hcmd]; exact tryLiftedQ_sim h.q h.eok.rinv.wf (h.rng did) ⟨ha.1, ha.2.1⟩) fun y q e t => ?_
    have hg := runCmd_grow h.eok e
    have htr := (tryLifted_longer h.eok.lim (hcmd ▸ e)).2
    have hsh := tryLifted_shr h.eok.rinv.wf (hcmd ▸ e)
    have gc := h.cmd e t.ok (by rw [t.bwd]; exact h.bwd)
    refine ⟨gc, ⟨hg.1, by simp [t.budget], by simp [t.bwd], fun _ => (runCmd_shr h.eok.rinv e (by simp)).short gc.eok.rinv.wf⟩, hg.2 (by simp), ?_, ?_, t.bwd, t.budget, hsh.1, fun m hm => by cases hm; exact hsh.2.2⟩
    · exact hg.1.lng.tr.subset hl
    · unfold work
      have := t.len
      simp only [t.budget]
      omega

theorem scan_runs {F : Form} {s0 : Stk} {recs : List Rec} {K : Prop} {p : Lims} {item : QItem} : ∀ {ds : List Nat} {z : ES}, GOK F s0 recs p z → ItemOK z item →
    Runs p.evo z.1 (·.1.1) (fun u => GOK F s0 recs p u.1 ∧ Step0 K p z u.1 ∧ u.1.1.1.2.elim = z.1.1.2.elim ∧ work u.1 ≤ work z ∧ u.1.2.bwd = z.2.bwd ∧
      (u.2 = true → u.1.2.budget = 0) ∧ Shr z.1.1.1 u.1.1.1.1 ∧
      ∀ l, item = .lit l → Short p.sub z.1.1.1 → u.2 = false → ∀ d ∈ ds, l.neg ∉ (u.1.1.1.1.clause d).lits) (scan p item ds z)
  | [], z, h, hi => .ok rfl ⟨h, h.refl0, rfl, Nat.le_refl _, rfl, by simp, .refl _, by simp⟩
  | did :: ds, z, h, hi => by
    unfold scan
    split
    · rename_i heq
      exact (scan_runs (K := K) h hi).mono fun u ⟨a1, a2, a3, a4, a5, a6, a7, _⟩ => ⟨a1, a2, a3, a4, a5, a6, a7, fun l hl => by rw [hl] at heq; cases heq⟩
    · rename_i hne
      split
      · refine .ok rfl ⟨h.queues ⟨h.q.wf, h.q.size, h.q.cls⟩ h.bwd, ⟨.refl h.eok.lim, Nat.zero_le _, Nat.le_refl _, fun _ h => h⟩, rfl, ?_, rfl, fun _ => rfl, .refl _, fun _ _ _ hf => by cases hf⟩
        unfold work; simp only []; omega
      · rename_i hb
        simp only []
        have h1 : GOK F s0 recs p (z.1, { z.2 with budget := z.2.budget - (z.1.1.1.clause did).lits.length }) :=
          h.queues ⟨h.q.wf, h.q.size, h.q.cls⟩ h.bwd
        have st1 : Step0 K p z (z.1, { z.2 with budget := z.2.budget - (z.1.1.1.clause did).lits.length }) := ⟨.refl h.eok.lim, Nat.sub_le _ _, Nat.le_refl _, fun _ h => h⟩
        split
        · rename_i hd
          have hdl : (z.1.1.1.clause did).lits ≠ [] := by
            have := hd.1; simp only [Cl.dead] at this; intro e; rw [e] at this; simp at this
          have h2 := h.eok.rinv.wf.len2 did hdl
          refine (trySubsumeQ_runs (K := K) h1 (by cases item <;> exact hi) hne hdl).bind fun z2 ⟨g2, s2, el2, i2, w2, b2, bu2, sh2, no2⟩ => ?_
          refine (scan_runs (K := K) g2 i2).mono fun u ⟨g3, s3, el3, w3, b3, t3, sh3, no3⟩ => ⟨g3, (st1.trans s2).trans s3, el3.trans el2, ?_, b3.trans b2, t3, sh2.trans sh3, ?_⟩
          · unfold work at *
            simp only [] at w2 w3 ⊢
            omega
          · intro l hl hp hu d hd
            rcases List.mem_cons.1 hd with rfl | hd
            · exact fun hc => no2 l hl (sh3 _ _ hc)
            · exact no3 l hl (sh2.short g2.eok.rinv.wf hp) hu d hd
        · rename_i hd'
          refine (scan_runs (K := K) h1 (by cases item <;> exact hi)).mono fun u ⟨g3, s3, el3, w3, b3, t3, sh3, no3⟩ => ⟨g3, st1.trans s3, el3, ?_, b3, t3, sh3, ?_⟩
          · unfold work at *
            simp only [] at w3 ⊢
            omega
          · intro l hl hp hu d hd
            rcases List.mem_cons.1 hd with rfl | hd
            · intro hc
              have hin := sh3 _ _ hc
              have := hp d
              refine hd' ⟨?_, by omega⟩
              simp only [Cl.dead, List.isEmpty_eq_false_iff]
              exact List.ne_nil_of_mem hin
            · exact no3 l hl hp hu d hd

theorem bestLoop_mem {x : DS} {e : El} : ∀ {c : Cls} {b : Nat} {t : Int}, bestLoop x e c b t = b ∨ ∃ l ∈ c, bestLoop x e c b t = l.var
  | [], b, t => .inl rfl
  | l :: c, b, t => by
    unfold bestLoop
    split
    · rcases bestLoop_mem (c := c) (b := b) (t := t) with h | ⟨m, hm, h⟩
      · exact .inl h
      · exact .inr ⟨m, by simp [hm], h⟩
    · split
      · rcases bestLoop_mem (x := x) (e := e) (c := c) (b := l.var) (t := (e.occ l.neg).length) with h | ⟨m, hm, h⟩
        · exact .inr ⟨l, by simp, h⟩
        · exact .inr ⟨m, by simp [hm], h⟩
      · rcases bestLoop_mem (c := c) (b := b) (t := t) with h | ⟨m, hm, h⟩
        · exact .inl h
        · exact .inr ⟨m, by simp [hm], h⟩

theorem bestVar_spec {F : Form} {s0 : Stk} {recs : List Rec} {p : Lims} {item : QItem} {z : ES} (h : GOK F s0 recs p z)
    (hi : ∀ l, item = .lit l → l ∈ z.1.1.2.trail) :
    QuOK p (bestVar p z item).2 ∧ (bestVar p z item).2.clauses = z.2.clauses ∧ (bestVar p z item).2.bwd = z.2.bwd ∧
      (bestVar p z item).2.budget = z.2.budget ∧ (bestVar p z item).2.vars = z.2.vars ∧
      ((bestVar p z item).1 ≠ 0 → (bestVar p z item).1 ≤ p.cnf ∧ ItemOK z item) := by
  cases item with
  | lit l =>
    refine ⟨h.q, rfl, rfl, rfl, rfl, fun _ => ?_⟩
    have ha := h.asg (hi l rfl)
    unfold bestVar
    simp only [ha.2.2]
    exact ⟨ha.2.1, hi l rfl⟩
  | clause cid =>
    unfold bestVar
    simp only []
    split
    · exact ⟨⟨h.q.wf, h.q.size, h.q.cls⟩, rfl, rfl, rfl, rfl, by simp⟩
    · rename_i hd
      refine ⟨⟨h.q.wf, h.q.size, h.q.cls⟩, rfl, rfl, rfl, rfl, fun hb => ?_⟩
      have hdl : (z.1.1.1.clause cid).lits ≠ [] := by
        intro e; simp [Cl.dead, e] at hd
      refine ⟨?_, hdl⟩
      simp only [] at hb ⊢
      split at hb
      · simp at hb
      · rename_i hel
        rw [if_neg hel]
        rcases bestLoop_mem (x := z.1.1) (e := z.1.2) (c := (z.1.1.1.clause cid).lits) (b := 0) (t := z.1.1.1.numClause) with e | ⟨l, hl, e⟩
        · exact absurd e hb
        · rw [e]; exact (h.rng cid l hl).2

theorem nextItem_spec {F : Form} {s0 : Stk} {recs : List Rec} {K : Prop} {p : Lims} {z : ES} {item : QItem} {q : Queues} (h : GOK F s0 recs p z)
    (e : nextItem z.1.1.2.trail z.2 = some (item, q)) :
    GOK F s0 recs p (z.1, q) ∧ Step0 K p z (z.1, q) ∧ (∀ l, item = .lit l → l ∈ z.1.1.2.trail) ∧ q.budget = z.2.budget ∧
      work (z.1, q) + 2 * z.2.bwd < work z + 2 * q.bwd ∧ (z.2.clauses = [] → z.2.bwd < q.bwd) ∧ (q.bwd = z.2.bwd ∨ ∃ l, item = .lit l ∧ q.bwd = z.2.bwd + 1 ∧ z.1.1.2.trail[z.2.bwd]? = some l) := by
  unfold nextItem at e
  cases hc : z.2.clauses with
  | cons i is =>
    rw [hc] at e
    simp only [Option.some.injEq, Prod.mk.injEq] at e
    obtain ⟨rfl, rfl⟩ := e
    refine ⟨h.queues ⟨h.q.wf, h.q.size, fun j hj => h.q.cls j (by rw [hc]; simp [hj])⟩ h.bwd, ⟨.refl h.eok.lim, Nat.le_refl _, Nat.le_refl _, fun _ h => h⟩, ?_, rfl, ?_, by simp, .inl rfl⟩
    · intro l hl
      obtain ⟨c, ec⟩ := h.q.cls i (by rw [hc]; simp)
      rw [ec] at hl; cases hl
    · unfold work; rw [hc]; simp only [List.length_cons]; omega
  | nil =>
    rw [hc] at e
    simp only [] at e
    cases ht : z.1.1.2.trail[z.2.bwd]? with
    | none => rw [ht] at e; simp at e
    | some l =>
      rw [ht] at e
      simp only [Option.some.injEq, Prod.mk.injEq] at e
      obtain ⟨rfl, rfl⟩ := e
      obtain ⟨hlt, hl⟩ := List.getElem?_eq_some_iff.1 ht
      refine ⟨h.queues ⟨h.q.wf, h.q.size, by simp⟩ hlt, ⟨.refl h.eok.lim, Nat.le_refl _, Nat.le_succ _, fun _ h => h⟩, ?_, rfl, ?_, fun _ => Nat.lt_succ_self _, .inr ⟨l, rfl, rfl, rfl⟩⟩
      · intro m hm; cases hm; rw [← hl]; exact List.getElem_mem _
      · unfold work; simp only [hc, List.length_nil]; omega

theorem nextItem_none {trail : List Lit} {q : Queues} (e : nextItem trail q = none) : q.clauses = [] ∧ trail.length ≤ q.bwd := by
  unfold nextItem at e
  cases hc : q.clauses with
  | cons i is => rw [hc] at e; simp at e
  | nil =>
    rw [hc] at e
    simp only [] at e
    cases ht : trail[q.bwd]? with
    | none => exact ⟨rfl, List.getElem?_eq_none_iff.1 ht⟩
    | some l => rw [ht] at e; simp at e

/-- The outcome of `backward_subsumption_check`. -/
structure Bwd (F : Form) (s0 : Stk) (recs : List Rec) (K : Prop) (p : Lims) (z z' : ES) : Prop where
  g : GOK F s0 recs p z'
  st : Step K p z z'
  elim : z'.1.1.2.elim = z.1.1.2.elim
  emp : z'.2.budget = 0 ∨ z'.2.clauses = []
  adv : z.2.clauses = [] → z.2.bwd < z.1.1.2.trail.length → z.2.bwd < z'.2.bwd

theorem bwdLoop_runs {F : Form} {s0 : Stk} {recs : List Rec} {K : Prop} {p : Lims} : ∀ {n : Nat} {z : ES}, GOK F s0 recs p z → work z < n + 2 * z.2.bwd →
    Runs p.evo z.1 (·.1) (Bwd F s0 recs K p z) (bwdLoop p n z)
  | 0, z, h, hn => by
    have := h.bwd
    unfold work at hn
    omega
  | n + 1, z, h, hn => by
    unfold bwdLoop
    split
    · rename_i hnone
      obtain ⟨hc, hb⟩ := nextItem_none hnone
      split
      · refine ⟨[.propagate], ?_⟩
        have := propagateQ_runs (K := K) h
        revert this
        cases propagateQ p z with
        | ok z' => exact fun ⟨a, g, st, el, eq⟩ => ⟨a, g, st, el, .inr (by rw [eq]; exact hc), fun _ hb' => by omega⟩
        | _ => exact id
      · exact .ok rfl ⟨h, h.refl, rfl, .inr hc, fun _ hb' => by omega⟩
    · rename_i item q1 hnext
      obtain ⟨g1, s1, hlit, hbu, hw, hadv, htk⟩ := nextItem_spec (K := K) h hnext
      split
      · rename_i hb0
        obtain ⟨q, e, g, st, c, v, bu, bw⟩ := clearQueues_runs (K := K) g1
        rw [e]
        have s01 : Step0 K p z (z.1, q) := s1.trans st.toStep0
        refine .ok rfl ⟨g, ?_, rfl, .inr c, fun hc _ => ?_⟩
        · rcases htk with hk | ⟨l, -, hk, hl⟩
          · exact s01.step h.bwd (bw.trans hk)
          · exact s01.taken h.bwd hl (bw.trans hk) fun _ => .inr (.inr (bu.trans hb0))
        · show _ < q.bwd
          rw [bw]; exact hadv hc
      · simp only []
        obtain ⟨bq, bcl, bbw, bbu, bva, bne⟩ := bestVar_spec (item := item) g1 hlit
        have gb : GOK F s0 recs p (z.1, (bestVar p (z.1, q1) item).2) := g1.queues bq (by rw [bbw]; exact g1.bwd)
        have sb : Step0 K p z (z.1, (bestVar p (z.1, q1) item).2) := ⟨.refl h.eok.lim, by simp only []; rw [bbu]; exact s1.budget, by simp only []; rw [bbw]; exact s1.bwd, fun _ h => h⟩
        have hwb : work (z.1, (bestVar p (z.1, q1) item).2) = work (z.1, q1) := by unfold work; simp only [bcl, bbu]
        have hbl : ∀ l, item = .lit l → (bestVar p (z.1, q1) item).1 = l.var ∧ l.var ≠ 0 := by
          rintro l rfl
          have ha := g1.asg (hlit l rfl)
          unfold bestVar
          simp only [] at ha ⊢
          rw [ha.2.2]
          exact ⟨rfl, by omega⟩
        split
        · rename_i hb
          have hk : q1.bwd = z.2.bwd := by
            rcases htk with hk | ⟨l, hl, -⟩
            · exact hk
            · have := hbl l hl; omega
          refine (bwdLoop_runs (K := K) gb ?_).mono fun z' hz => ⟨hz.g, (sb.step h.bwd (bbw.trans hk)).trans hz.st, hz.elim, hz.emp, fun hc _ => ?_⟩
          · rw [hwb]; simp only [bbw] at *; omega
          · have := hadv hc
            have h2 := hz.st.bwd
            simp only [bbw] at h2
            omega
        · rename_i hb
          obtain ⟨hle, hit⟩ := bne hb
          split
          · omega
          · refine (Runs.cmd (c := .retain _ false) (QSim.state (Q := fun q => q = (bestVar p (z.1, q1) item).2) _ rfl)
              (Q' := fun z1 => GOK F s0 recs p z1 ∧ z1.1.1 = z.1.1 ∧ z1.2 = (bestVar p (z.1, q1) item).2 ∧ Ab z.1.2 z1.1.2) fun y q e hq => ?_).bind ?_
            · subst hq
              exact ⟨gb.cmd e bq gb.bwd, by cases e; rfl, rfl, by cases e; exact fun _ h => h⟩
            · rintro z1 ⟨gz1, e1, e2, eab⟩
              have s2 : Step0 K p z z1 := by
                refine ⟨.same h.eok.lim e1 eab, ?_, ?_, by rw [e1]; exact fun _ h => h⟩
                · rw [e2]; exact sb.budget
                · rw [e2]; exact sb.bwd
              refine (scan_runs (K := K) gz1 (by cases item <;> (unfold ItemOK at *; rw [e1]; exact hit))).bind ?_
              rintro ⟨z2, tm⟩ ⟨g2, st2, el2, w2, bw2, ex, sh2, no2⟩
              simp only [] at g2 st2 el2 w2 bw2 ex sh2 no2
              simp only []
              have hbw : z2.2.bwd = q1.bwd := by rw [bw2, e2, bbw]
              have hw1 : work z1 = work (z.1, q1) := by rw [← hwb]; unfold work; rw [e1, e2]
              have st02 : Step K p z z2 := by
                rcases htk with hk | ⟨l, hl, hk, hl'⟩
                · exact (s2.trans st2).step h.bwd (hbw.trans hk)
                · refine (s2.trans st2).taken h.bwd hl' (hbw.trans hk) fun hp => ?_
                  cases htm : tm with
                  | true => exact .inr (.inr (ex htm))
                  | false =>
                    cases hab : z1.1.2.aborted l.var with
                    | true => exact .inl ⟨l.var, (g1.asg (hlit l hl)).2.1, st2.grow.ab _ hab⟩
                    | false =>
                      refine .inr (.inl fun d hd => ?_)
                      have := gz1.eok.occ d l.neg (sh2 d _ hd) hab
                      refine no2 l hl (by rw [e1]; exact hp) htm d ?_ hd
                      rw [(hbl l hl).1, List.mem_append]
                      unfold El.occ Lit.neg at this
                      cases hpos : l.pos <;> simp [hpos] at this
                      · exact .inl this
                      · exact .inr this
              cases tm with
              | true =>
                refine .ok rfl ⟨g2, st02, by rw [el2, e1], .inl (ex rfl), fun hc _ => ?_⟩
                rw [hbw]; exact hadv hc
              | false =>
                simp only [Bool.false_eq_true, if_false]
                refine (Runs.cmd (c := .retain _ false) (QSim.state (Q := fun q => q = z2.2) _ rfl)
                  (Q' := fun z3 => GOK F s0 recs p z3 ∧ z3.1.1 = z2.1.1 ∧ z3.2 = z2.2 ∧ Ab z2.1.2 z3.1.2) fun y q e hq => ?_).bind ?_
                · subst hq
                  exact ⟨g2.cmd e g2.q g2.bwd, by cases e; rfl, rfl, by cases e; exact fun _ h => h⟩
                · rintro z3 ⟨g3, e3, e4, eab3⟩
                  have s3 : Step K p z2 z3 := Step0.step ⟨.same g2.eok.lim e3 eab3, by rw [e4], by rw [e4], by rw [e3]; exact fun _ h => h⟩ g2.bwd (by rw [e4])
                  have hw3 : work z3 = work z2 := by unfold work; rw [e3, e4]
                  refine (bwdLoop_runs (K := K) g3 ?_).mono fun z' hz => ⟨hz.g, (st02.trans s3).trans hz.st, ?_, hz.emp, fun hc _ => ?_⟩
                  · rw [hw3, e4, hbw]; omega
                  · rw [hz.elim, e3, el2, e1]
                  · have := hadv hc
                    have h2 := hz.st.bwd
                    rw [e4, hbw] at h2
                    omega

theorem backward_runs {F : Form} {s0 : Stk} {recs : List Rec} {K : Prop} {p : Lims} {z : ES} (h : GOK F s0 recs p z) :
    Runs p.evo z.1 (·.1) (Bwd F s0 recs K p z) (backward p z) := by
  refine bwdLoop_runs (K := K) h ?_
  unfold work bwdFuel
  omega

end Splr
