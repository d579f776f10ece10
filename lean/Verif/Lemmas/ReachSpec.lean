import Verif.Lemmas.SolveSpec
import Verif.Model.Reach
/-! The invariants hold in all reachable states. -/
namespace Splr
open Stk

theorem clsOf_range {x : Sol} {v : List Int} (h : v.any x.badLit = false) : ∀ l ∈ clsOf v, 1 ≤ l.var ∧ l.var ≤ x.s.numVars := ofInt_range h

theorem Built.bok {F : Form} {x : Sol} (h : Built F x) : BOK F x ∧ Rng F x.s.numVars := by
  induction h with
  | new nv => exact ⟨bok_new nv, by simp [Rng]⟩
  | @addVar F x h ih =>
    refine ⟨ih.1.addVar, fun c hc l hl => ?_⟩
    have := ih.2 c hc l hl
    exact ⟨this.1, Nat.le_succ_of_le this.2⟩
  | @addClause F x y v h e ih =>
    obtain ⟨y', e', h1, -, h3, h4, h5, -⟩ := addClause_spec ih.1 v
    rw [h1] at e
    simp only [Option.some.injEq, Prod.mk.injEq] at e
    obtain ⟨rfl, rfl⟩ := e
    refine ⟨h5 rfl, fun c hc l hl => ?_⟩
    rw [h3]
    rcases List.mem_append.1 hc with hc | hc
    · exact ih.2 c hc l hl
    · simp at hc; subst hc
      refine ofInt_range ?_ l hl
      by_contra hb
      simp only [Bool.not_eq_false] at hb
      simp [hb] at h4
  | @rejected F x y v err h e ih =>
    obtain ⟨y', e', h1, -, h3, h4, -, h6, -⟩ := addClause_spec ih.1 v
    rw [h1] at e
    simp only [Option.some.injEq, Prod.mk.injEq] at e
    obtain ⟨rfl, rfl⟩ := e
    rw [h6 (by simp)]; exact ih
  | @addAssignment F x y i h e ih =>
    obtain ⟨-, h2, h3, -, h5, -⟩ := addAssignment_spec ih.1 i
    rw [e] at h2 h3 h5
    refine ⟨h5 rfl, fun c hc l hl => ?_⟩
    simp only [] at h2
    rw [h2]
    rcases List.mem_append.1 hc with hc | hc
    · exact ih.2 c hc l hl
    · simp at hc; subst hc
      refine ofInt_range (x := x) (v := [i]) ?_ l hl
      by_contra hb
      simp only [List.any_cons, List.any_nil, Bool.or_false, Bool.not_eq_false] at hb
      simp [hb] at h3
  | @rejectedAssignment F x y i h e ih =>
    obtain ⟨-, -, -, h4, -⟩ := addAssignment_spec ih.1 i
    rw [e] at h4
    have := h4 rfl
    simp only [] at this
    rw [this]; exact ih
  | @line F x y c r h hc e hr ih =>
    have hb : c.any x.badLit = false := by
      rw [List.any_eq_false]
      intro i hi
      have := hc i hi
      simp only [Sol.badLit, Bool.or_eq_true, decide_eq_true_eq]
      omega
    obtain ⟨y', r', e', -, h2, h3, -⟩ := addUnchecked_spec ih.1 (ofInt_range hb)
    rw [e'] at e
    simp only [Option.some.injEq, Prod.mk.injEq] at e
    obtain ⟨rfl, rfl⟩ := e
    refine ⟨h3 hr, fun d hd l hl => ?_⟩
    rw [h2]
    rcases List.mem_append.1 hd with hd | hd
    · exact ih.2 d hd l hl
    · simp at hd; subst hd; exact ofInt_range hb l hl

/-- The formula the state is about: `F`, or more if the eliminator is disabled (see C02). -/
def Sup (cfg : Cfg) (F F' : Form) : Prop := (∀ c ∈ F, c ∈ F') ∧ (cfg.enable = true → F' = F)

theorem Sup.refl (cfg : Cfg) (F : Form) : Sup cfg F F := ⟨fun _ h => h, fun _ => rfl⟩

theorem Head.sok {cfg : Cfg} {F : Form} {x : Sol} (h : Head cfg F x) : ∃ F', Sup cfg F F' ∧ SOK F' x.s.numVars x := by
  induction h with
  | @start x y p h e =>
    by_cases hen : cfg.enable = true
    · have := preprocess_spec hen (o := p) h.bok.1
      rw [e] at this
      refine ⟨F, .refl _ _, ?_⟩
      have h1 := this.1
      rw [← h1.nvar] at h1; exact h1
    · obtain ⟨F', hF, h1⟩ := preprocess_any h.bok.1 e
      rw [← h1.nvar] at h1
      exact ⟨F', ⟨hF, fun e => absurd e hen⟩, h1⟩
  | @step x y o h hr e ih =>
    obtain ⟨F', hF, h1⟩ := ih
    have := searchStep_spec (cfg := cfg) (o := o) h1
    rw [e] at this
    refine ⟨F', hF, ?_⟩
    have h2 : SOK F' x.s.numVars y := this
    rw [← h2.nvar] at h2; exact h2

theorem Decided.inv {cfg : Cfg} {F : Form} {db : Cdb} {s : Stk} (h : Decided cfg F db s) : PInv db s ∧ Dom db s ∧ ∃ F', Sup cfg F F' ∧ ∃ recs, Glob F' db s recs := by
  obtain ⟨h, hr, e⟩ := h
  obtain ⟨F', hF, h1⟩ := h.sok
  obtain ⟨p1, t1, -⟩ := decideStep_spec (k := true) (r := false) h1.pinv h1.dom e
  obtain ⟨recs, g, -⟩ := h1.glob
  exact ⟨p1, t1.dom h1.dom, F', hF, recs, g.step t1⟩

theorem PSteps.pinv {db db' : Cdb} {s s' : Stk} (h : PInv db s) (p : PSteps db s db' s') : PInv db' s' := (p.all h).1

theorem Conflict.inv {cfg : Cfg} {F : Form} {db : Cdb} {s : Stk} {l : Lit} {r : Reason} (h : Conflict cfg F db s l r) :
    PInv db s ∧ Dom db s ∧ ConfOK db s l r ∧ ∃ F', Sup cfg F F' ∧ ∃ recs, Glob F' db s recs := by
  obtain ⟨h, e⟩ := h
  obtain ⟨p, d, F', hF, recs, g⟩ := h.inv
  rename_i db0 s0 q
  have hg := propagate_good (q := q) p
  rw [e] at hg
  have t := hg.1.trn (k := true) (r := false) p.rinv
  exact ⟨(hg.1.all p).1, t.dom d, hg.2, F', hF, recs, g.step t⟩

theorem Propagating.pinv {cfg : Cfg} {F : Form} {db : Cdb} {s : Stk} (h : Propagating cfg F db s) : PInv db s := by
  induction h with
  | start h => exact h.inv.1
  | @reused db db' s s' q _ e ih =>
    have hg := reuse_good (q := q) ih
    rw [e] at hg
    exact (hg.all ih).1
  | @literal db db' s s' p _ hp e ih =>
    have a := advance_step (db := db) hp
    have ih' := (a.all ih).1
    have hg := propLit_good PK.pinv (sandbox := false) (p := p) ih' (ih'.inv.tv p (List.mem_of_getElem? (by simpa using hp)))
    rw [e] at hg
    exact (hg.all ih').1

/-- The invariant of the root-level states. -/
def IOK (F : Form) : DS → Option El → Prop
  | d, none => ∃ recs, Glob F d.1 d.2 recs ∧ d.2.lim = [] ∧ Unl d.1
  | d, some e => ∃ recs s0, EOK F s0 recs (d, e)

theorem Inner.ok {cfg : Cfg} {F : Form} {d : DS} {e : Option El} (h : Inner cfg F d e) : ∃ F', Sup cfg F F' ∧ IOK F' d e := by
  induction h with
  | @built x h =>
    have h1 := h.bok.1
    exact ⟨F, .refl _ _, [], h1.glob, h1.lim, h1.unl⟩
  | @restart x h low =>
    obtain ⟨F', hF, h1⟩ := h.sok
    obtain ⟨recs, g, -⟩ := h1.glob
    exact ⟨F', hF, recs, g.step (Tr.cancelUntil (k := true) h1.pinv.rinv low 0), cancelUntil_lim0, h1.unl⟩
  | @clearAsserted d d' h e ih =>
    obtain ⟨F', hF, recs, g, hl, hu⟩ := ih
    have := rg_clearAsserted (r := true) g.rinv hl g.dom
    rw [e] at this
    exact ⟨F', hF, recs, g.step this.1, this.2, this.1.unl rfl hu⟩
  | @reduce d d' victims h e ih =>
    obtain ⟨F', hF, recs, g, hl, hu⟩ := ih
    unfold Cdb.reduceRes at e
    cases hr : d.1.reduce d.2.level victims with
    | none => rw [hr] at e; simp at e
    | some db1 =>
      rw [hr] at e
      simp only [Res.ok.injEq] at e
      subst e
      obtain ⟨t, u⟩ := reduce_tr (r := true) g.rinv hl hr
      exact ⟨F', hF, recs, g.step t, hl, u hu⟩
  | @vivify d d' targets h e ih =>
    obtain ⟨F', hF, recs, g, hl, hu⟩ := ih
    have := rg_vivify (r := true) (targets := targets) g.rinv hl g.dom
    rw [e] at this
    exact ⟨F', hF, recs, g.step this.1, this.2, this.1.unl rfl hu⟩
  | @propagate d d' h e ih =>
    obtain ⟨F', hF, recs, g, hl, hu⟩ := ih
    have := rg_propagate (k := true) (r := true) g.rinv hl
    rw [e] at this
    exact ⟨F', hF, recs, g.step this.1, this.2, this.1.unl rfl hu⟩
  | @prepare d y cnf h e ih =>
    obtain ⟨F', hF, recs, g, hl, hu⟩ := ih
    obtain ⟨p1, p2, p3, p4⟩ := prepare_spec g.rinv.wf g.dom hu e
    refine ⟨F', hF, recs, y.1.2, [], ?_, by simpa [encode] using p3, by rw [p1]; exact hl, p4, id, id, rfl⟩
    rw [p1, List.append_nil]
    exact g.step (Tr.flags (r := true) g.rinv hl p2)
  | @pure x x1 x2 x3 y targets h e1 e2 e3 e4 =>
    have hb := h.bok.1
    have hv := rg_vivify (r := true) (targets := targets) (x := (x.db, x.s)) hb.rinv hb.lim hb.dom
    rw [e1] at hv
    obtain ⟨t1, l1⟩ := hv
    simp only [id] at t1
    have g1 := hb.glob.step t1
    have c1 := hb.cov.step t1
    have v1 := t1.sv rfl hb.saved
    have hp := rg_propagate (k := true) (r := true) g1.rinv l1
    rw [e2] at hp
    obtain ⟨t2, l2⟩ := hp
    simp only [id] at t2
    have g2 := g1.step t2
    have c2 := c1.step t2
    have v2 := t2.sv rfl v1
    have u2 : Unl x2.1 := t2.unl rfl (t1.unl rfl hb.unl)
    obtain ⟨p1, p2, p3, p4⟩ := prepare_spec g2.rinv.wf g2.dom u2 e3
    have hP : POK F x.s.numVars y.2 y.1 := by
      refine ⟨?_, ?_, by rw [p1]; exact l2, by rw [p1]; exact v2, p4, by rw [p1]; exact t2.sp.numVars.trans t1.sp.numVars⟩
      · rw [p1]; exact g2.step (Tr.flags (r := true) g2.rinv l2 p2)
      · intro c hc
        rw [p2.cert] at hc
        exact covered_same (fun i x => by rw [p2.lits]) (by rw [p1]; exact fun _ h => h) (c2 c hc)
    have h4 := pureLoop_spec (cnf := x.cnf) hP (n := y.1.2.numVars) (vi := 1) (Nat.le_refl _) (by rw [hP.nv]; omega)
    rw [e4] at h4
    exact ⟨F, .refl _ _, [], x3.2, [], by simpa using h4.glob, p3, h4.lim, h4.occ, id, id, rfl⟩
  | @command d e y c h e' ih =>
    obtain ⟨F', hF, recs, s0, h1⟩ := ih
    have := runCmd_spec (evo := cfg.evo) h1 c
    rw [e'] at this
    exact ⟨F', hF, recs, s0, this⟩
  | @stop d e h ih =>
    obtain ⟨F', hF, recs, s0, recs', g, -, hl, -⟩ := ih
    refine ⟨F', hF, recs ++ recs', g.step (Tr.flags (r := true) g.rinv hl (flags_unlinkAll d.1)), hl, fun i _ => rfl⟩

theorem Inner.glob {cfg : Cfg} {F : Form} {d : DS} {e : Option El} (h : Inner cfg F d e) :
    d.2.lim = [] ∧ ∃ F', Sup cfg F F' ∧ ∃ recs, Glob F' d.1 d.2 recs := by
  obtain ⟨F', hF, h1⟩ := h.ok
  cases e with
  | none => obtain ⟨recs, g, hl, -⟩ := h1; exact ⟨hl, F', hF, recs, g⟩
  | some e => obtain ⟨recs, s0, recs', g, -, hl, -⟩ := h1; exact ⟨hl, F', hF, _, g⟩

theorem Probe.inv {cfg : Cfg} {F : Form} {db : Cdb} {s : Stk} (h : Probe cfg F db s) : RInv db s := by
  induction h with
  | start h => obtain ⟨-, F', -, recs, g⟩ := h.glob; exact g.rinv
  | assign _ _ _ hn ih => exact ⟨ih.wf, ih.inv.assignDecision hn⟩
  | ok _ e ih =>
    have := propagateSandbox_good ih
    rw [e] at this
    exact (this.allK PK.rinv ih).1
  | conflict _ e ih =>
    have := propagateSandbox_good ih
    rw [e] at this
    exact (this.1.allK PK.rinv ih).1

theorem Visited.inv {cfg : Cfg} {F : Form} {db : Cdb} {s : Stk} (h : Visited cfg F db s) : RInv db s := by
  cases h with
  | head h => obtain ⟨F', -, h⟩ := h.sok; exact h.pinv.rinv
  | decided h => exact h.inv.1.rinv
  | propagating h => exact h.pinv.rinv
  | @propagated db0 _ s0 _ q h e =>
    have p := h.inv.1
    have hg := propagate_good (q := q) p
    rw [e] at hg
    exact (hg.all p).1.rinv
  | conflict h => exact h.inv.1.rinv
  | @handled db0 _ s0 _ l r low rr drift h hd e =>
    have p := h.inv
    exact (handle_tr p.1 p.2.1 hd p.2.2.1 e).rinv
  | inner h => obtain ⟨-, F', -, recs, g⟩ := h.glob; exact g.rinv
  | probe h => exact h.inv

end Splr
