import Verif.Lemmas.GoneSearch
import Verif.Lemmas.Careful
import Verif.Lemmas.Timed
import Verif.Model.Full
import Verif.Props.C42_Queue
import Verif.Props.C54_C55_Answers
/-! The solver with the queues of the eliminator refines the solver with arbitrary commands. -/
namespace Splr
open Stk Heap Stage

theorem Res.bind_okk {α β : Type} (a : α) (f : α → Res β) : (Res.ok a).bind f = f a := rfl

/-! ## preparation -/

theorem QTo.nil {p : Lims} {q q' : Queues} (h : QTo p 0 q q') (hq : q.clauses = []) : q'.clauses = [] := by
  have := h.len
  rw [hq] at this
  exact List.eq_nil_of_length_eq_zero (by simpa using this)

theorem linkLoopQ_ok {p : Lims} : ∀ {ids : List Nat} {y : DS × El} {q : Queues}, QuOK p q → (∀ i, VarsIn p.cnf (y.1.1.clause i).lits) →
    ∃ y' q', linkLoop p.evo p.cnf ids y = .ok y' ∧ linkLoopQ p ids (y, q) = .ok (y', q') ∧ QTo p 0 q q' ∧ y'.1.2 = y.1.2
  | [], y, q, h, _ => ⟨y, q, rfl, rfl, .refl h, rfl⟩
  | cid :: ids, y, q, h, hr => by
    unfold linkLoop linkLoopQ
    simp only []
    split
    · exact linkLoopQ_ok h hr
    · rename_i hd
      have hl : (y.1.1.clause cid).occurLinked = false := by
        rw [Bool.or_eq_true, not_or] at hd; simpa using hd.2
      have hrc := hr cid
      rw [if_neg (by
        rw [List.any_eq_true]
        rintro ⟨l, h1, h2⟩
        have := hrc l h1
        simp only [decide_eq_true_eq] at h2
        omega)]
      obtain ⟨q1, e1, t1⟩ := addLitsQ_ok (el := y.1.2.elim) (cid := cid) (e := y.2) h hrc
      have ea : addCid p.evo y.1 y.2 cid = ((y.1.1.setLinked cid true, y.1.2), (y.1.1.clause cid).lits.foldl (El.addLit p.evo y.1.2.elim cid) y.2) := by
        unfold addCid; rw [hl]; rfl
      have eq1 : addCidQ p (y, q) cid false = .ok (addCid p.evo y.1 y.2 cid, q1) := by
        unfold addCidQ
        simp only []
        rw [hl, if_neg (by simp), e1, ea]; rfl
      rw [eq1]
      obtain ⟨y', q', h1, h2, h3, h4⟩ := linkLoopQ_ok (ids := ids) (y := addCid p.evo y.1 y.2 cid) t1.ok (by
        intro i
        rw [ea]
        show VarsIn _ ((y.1.1.setLinked cid true).clause i).lits
        have : ((y.1.1.setLinked cid true).clause i).lits = (y.1.1.clause i).lits := by
          unfold Cdb.setLinked Cdb.setC; simp only [upd]; split
          · rename_i e; rw [e]
          · rfl
        rw [this]; exact hr i)
      exact ⟨y', q', h1, h2, t1.trans h3, by rw [h4, ea]⟩

theorem enqLoop_ok {p : Lims} {up : Bool} {x : Stk} {e : El} : ∀ {vs : List Nat} {q : Queues}, QuOK p q → (∀ v ∈ vs, 1 ≤ v ∧ v ≤ p.cnf) →
    ∃ q', enqLoop p up x e vs q = .ok q' ∧ QTo p 0 q q'
  | [], q, h, _ => ⟨q, rfl, .refl h⟩
  | v :: vs, q, h, hv => by
    unfold enqLoop
    split
    · exact enqLoop_ok h fun w hw => hv w (by simp [hw])
    · obtain ⟨q1, e1, t1⟩ := enqVar_ok (e := e) (up := up) h (hv v (by simp)).1 (hv v (by simp)).2
      rw [e1]
      obtain ⟨q2, e2, t2⟩ := enqLoop_ok (up := up) (x := x) (e := e) (vs := vs) t1.ok fun w hw => hv w (by simp [hw])
      exact ⟨q2, e2, t1.trans t2⟩

theorem quOK_new {p : Lims} {flags : Nat → Bool} : QuOK p (Queues.new p.cnf flags) := ⟨wf_new0 _, rfl, by simp [Queues.new]⟩

theorem prepareQ_ok {p : Lims} {flags : Nat → Bool} {x : DS} (hd : Dom x.1 x.2) (hc : p.cnf = x.2.numVars) :
    ∃ y q, prepare true p.evo p.cnf x = .ok y ∧ prepareQ p flags x = .ok (y, q) ∧ QuOK p q ∧ q.clauses = [] ∧ q.bwd = 0 := by
  obtain ⟨y, q, e1, e2, t, ey⟩ := linkLoopQ_ok (p := p) (ids := x.1.ids) (y := (x, El.new)) (quOK_new (flags := flags)) (fun i l hl => by
    have := hd.cl i l hl
    rw [hc]; exact ⟨this.1, this.2.1⟩)
  obtain ⟨q', e3, t'⟩ := enqLoop_ok (p := p) (up := true) (x := y.1.2) (e := y.2) (vs := (List.range x.2.numVars).map (· + 1)) t.ok (by
    intro v hv
    simp only [List.mem_map, List.mem_range] at hv
    obtain ⟨i, h1, rfl⟩ := hv
    omega)
  refine ⟨y, q', ?_, ?_, t'.ok, t'.nil (t.nil rfl), by rw [t'.bwd, t.bwd]; rfl⟩
  · unfold prepare
    rw [e1]
    simp only [Bool.not_true, Bool.false_eq_true, if_false, Res.bind]
    rw [if_neg]
    rw [List.any_eq_true]
    rintro ⟨i, h1, h2⟩
    simp only [List.mem_range, Bool.and_eq_true, decide_eq_true_eq] at h1 h2
    omega
  · unfold prepareQ
    rw [e2]
    simp only [Res.bind]
    rw [e3]

/-- As `QSim`, for the loop over the pure literals. -/
def PSim (p : Lims) (q : Queues) (rq : Res (DS × Queues)) : Res DS → Prop
  | .ok x => ∃ q', rq = .ok (x, q') ∧ QTo p 0 q q'
  | .unsat db s => rq = .unsat db s
  | .err => rq = .err
  | .panic => rq = .panic
  | .fuel => rq = .fuel

theorem PSim.before {p : Lims} {q q1 : Queues} {rq : Res (DS × Queues)} {r : Res DS} (t : QTo p 0 q q1) (h : PSim p q1 rq r) : PSim p q rq r := by
  cases r with
  | ok x => obtain ⟨q', e, t'⟩ := h; exact ⟨q', e, t.trans t'⟩
  | _ => exact h

theorem pureLoopQ_ok {p : Lims} {e : El} : ∀ {n vi : Nat} {x : DS} {q : Queues}, QuOK p q → 1 ≤ vi → vi + n ≤ p.cnf + 1 →
    PSim p q (pureLoopQ p e n vi x q) (pureLoop p.cnf e n vi x)
  | 0, _, x, q, h, _, _ => ⟨q, rfl, .refl h⟩
  | n + 1, vi, x, q, h, h1, h2 => by
    obtain ⟨q1, e1, t1⟩ := enqVar_ok (e := e) (up := false) h h1 (v := vi) (by omega)
    have key : ∀ (l : Cls) (b : Bool), PSim p q
        ((x.2.assignRootRes (x.1.log (.add l)) ⟨vi, b⟩).bind fun x1 => (enqVar p e q vi false).bind (pureLoopQ p e n (vi + 1) x1))
        ((x.2.assignRootRes (x.1.log (.add l)) ⟨vi, b⟩).bind (pureLoop p.cnf e n (vi + 1))) := by
      intro l b
      rw [e1]
      cases x.2.assignRootRes (x.1.log (.add l)) ⟨vi, b⟩ with
      | ok x1 => exact (pureLoopQ_ok (e := e) (n := n) (vi := vi + 1) (x := x1) t1.ok (by omega) (by omega)).before t1
      | _ => rfl
    have rest := pureLoopQ_ok (e := e) (n := n) (vi := vi + 1) (x := x) h (by omega) (by omega)
    unfold pureLoop pureLoopQ
    by_cases c1 : x.2.assign vi ≠ none
    · rw [if_pos c1, if_pos c1]; exact rest
    have c0 : ¬ p.cnf + 1 < vi := by omega
    rw [if_neg c1, if_neg c1, if_neg c0, if_neg c0]
    by_cases c2 : e.aborted vi = true
    · rw [if_pos c2, if_pos c2]; exact rest
    rw [if_neg c2, if_neg c2]
    by_cases c3 : e.neg vi = []
    · rw [if_pos c3, if_pos c3]; exact key _ _
    rw [if_neg c3, if_neg c3]
    by_cases c4 : e.pos vi = []
    · rw [if_pos c4, if_pos c4]; exact key _ _
    rw [if_neg c4, if_neg c4, e1]
    exact (pureLoopQ_ok (e := e) (n := n) (vi := vi + 1) (x := x) t1.ok (by omega) (by omega)).before t1

/-! ## the eliminator -/

/-- The negations of the literals on the trail are in no clause. -/
def Lifts (x : DS) : Prop := ∀ l ∈ x.2.trail, ∀ d, l.neg ∉ (x.1.clause d).lits

theorem simplifyQ_eq {F : Form} {s0 : Stk} {recs : List Rec} {p : Lims} {c : Ctl} {oom : Bool} {z : ES} (h : GOK F s0 recs p z) (hz : z.2.clauses = []) :
    ∃ cs, simplifyQ p c oom z = simplify true p.evo cs oom z.1 ∧
      ∀ y, simplifyQ p c oom z = .ok y → z.2.bwd = 0 → Careful p c.skip → ampleElim p c z = true → Lifts y.1 := by
  obtain ⟨cs, hr⟩ := eliminateQ_runs (skip := c.skip) (budget := c.budget) (late := c.late) h hz
  refine ⟨cs, ?_, ?_⟩
  · unfold simplifyQ simplify
    simp only [if_true]
    cases he : eliminateQ p c.skip c.budget c.late z with
    | ok u => rw [he] at hr; rw [hr.1]; rfl
    | _ => rw [he] at hr; rw [show runCmds _ _ _ = _ from hr]; rfl
  · intro y e hb hK ha
    unfold simplifyQ at e
    obtain ⟨u, he, e1⟩ := Res.bind_ok e
    split at e1
    · cases e1
    cases e1
    rw [he] at hr
    obtain ⟨-, g, -, -, -, hcl⟩ := hr
    unfold ampleElim at ha
    rw [he] at ha
    simp only [Bool.and_eq_true, List.all_eq_true, decide_eq_true_eq, List.mem_range, Bool.not_eq_true'] at ha
    obtain ⟨⟨a1, a2⟩, a3⟩ := ha
    have hw := h.eok.rinv.wf
    have hs : Short p.sub z.1.1.1 := by
      intro i
      by_cases hm : (z.1.1.1.clause i).lits = []
      · rw [hm]; exact Nat.zero_le _
      · exact a1 i (mem_ids hw hm)
    obtain ⟨t1, t2⟩ := hcl hK (.inr ⟨hs, fun i hi => by omega⟩) a2
    rcases t2 with ⟨v, hv, hab⟩ | ⟨-, hl⟩
    · rw [a3 v (by omega)] at hab; cases hab
    · intro l hl' d hm
      obtain ⟨i, hi, rfl⟩ := List.mem_iff_getElem.1 hl'
      exact hl i (by simp only [] at hi; omega) _ (List.getElem?_eq_getElem hi) d hm

theorem segmentElimQ_eq {F : Form} {nv : Nat} {cfg : Cfg} {c : Ctl} {o : StageOrc} {x : Sol} (h : ROK F nv x.store (x.db, x.s)) (hc : x.cnf = nv) :
    ∃ cs, segmentElimQ cfg c o x = segmentElim cfg { o with cmds := cs } x ∧
      ∀ y, segmentElimQ cfg c o x = .ok y → cfg.enable = true → c.Real → ampleSeg cfg c x = true → Lifts (y.db, y.s) := by
  unfold segmentElimQ
  cases hen : cfg.enable with
  | false => exact ⟨o.cmds, by simp, fun _ _ h => by cases h⟩
  | true =>
    simp only [if_true]
    obtain ⟨recs, g, e⟩ := h.glob
    have hnv : x.s.numVars = nv := h.nvar
    obtain ⟨y, q, ep, eq, hq, hcl, hb⟩ := prepareQ_ok (p := c.lims cfg.evo x.cnf) (flags := c.flags) (x := (x.db, x.s)) g.dom (by show x.cnf = _; rw [hc]; exact hnv.symm)
    obtain ⟨p1, p2, p3, p4⟩ := prepare_spec g.rinv.wf g.dom h.unl ep
    have hE : EOK F x.s recs y := by
      refine ⟨[], ?_, by rw [p3]; rfl, by rw [p1]; exact h.lim, p4, by rw [p1]; exact id, by rw [p1]; exact id, by rw [p1]⟩
      rw [List.append_nil, p1]
      exact g.step (Tr.flags (r := true) g.rinv h.lim p2)
    have hG : GOK F x.s recs (c.lims cfg.evo x.cnf) (y, q) := ⟨hE, hq, by show x.cnf = _; rw [hc]; exact hnv.symm, by rw [hb]; exact Nat.zero_le _⟩
    obtain ⟨cs, es, hsw⟩ := simplifyQ_eq (c := c) (oom := o.oom) hG hcl
    refine ⟨cs, ?_, fun u hu _ hK ha => ?_⟩
    · unfold segmentElim
      rw [hen, eq]
      have ep' : prepare true cfg.evo x.cnf (x.db, x.s) = .ok y := ep
      rw [ep']
      simp only [Res.bind]
      rw [es]
      rfl
    · unfold ampleSeg at ha
      rw [eq] at hu ha
      simp only [Res.bind_okk] at hu
      obtain ⟨w, e1, e2⟩ := Res.bind_ok hu
      cases e2
      exact hsw w e1 hb (hK.careful _ _) ha

theorem preprocessQ_eq {F : Form} {cfg : Cfg} {o : PreQ} {x : Sol} (hb : BOK F x) (hc : x.cnf = x.s.numVars) :
    ∃ cs, preprocessQ cfg o x = preprocess cfg (o.pre cs) x ∧
      ∀ y, preprocessQ cfg o x = .ok y → cfg.enable = true → o.ctl.Real → amplePre cfg o x = true → Lifts (y.db, y.s) := by
  unfold preprocessQ
  cases hen : cfg.enable with
  | false => exact ⟨[], by simp, fun _ _ h => by cases h⟩
  | true =>
    simp only [if_true]
    have hun : ∀ cs, preprocess cfg (o.pre cs) x = if o.oom then .err else
        (vivify o.targets (x.db, x.s)).bind fun x1 =>
          (((Stk.propagateSandbox x1.1 x1.2).toRes.bind fun z => if o.oom1 then .err else .ok z).orOom o.oom1).bind fun x2 =>
            (prepare cfg.enable cfg.evo x.cnf x2).bind fun y =>
              (pureLoop x.cnf y.2 y.1.2.numVars 1 y.1).bind fun x3 =>
                ((simplify cfg.enable cfg.evo cs o.oom2 (x3, y.2)).orOom o.oom2).bind fun z =>
                  .ok { x with db := z.1.1, s := z.1.2.rebuildOrder, store := x.store ++ z.2.lits } := fun _ => rfl
    simp only [hun, hen]
    by_cases ho : o.oom = true
    · exact ⟨[], by simp [ho], by simp [ho]⟩
    simp only [ho, Bool.false_eq_true, if_false]
    unfold amplePre
    cases e1 : vivify o.targets (x.db, x.s) with
    | ok x1 =>
      simp only [Res.bind_okk]
      have hrg := (rg_vivify (r := true) (x := (x.db, x.s)) hb.rinv hb.lim hb.dom).ok e1
      obtain ⟨t1, l1⟩ := hrg
      simp only [id] at t1
      cases e2 : ((((Stk.propagateSandbox x1.1 x1.2).toRes.bind fun z => if o.oom1 then .err else .ok z) : Res DS).orOom o.oom1) with
      | ok x2 =>
        simp only [Res.bind_okk]
        have hoom : ∀ {α : Type} {r : Res α} {b : Bool} {a : α}, r.orOom b = .ok a → r = .ok a := by
          intro α r b a h
          cases r with
          | unsat db s => unfold Res.orOom at h; simp only [] at h; split at h <;> simp at h
          | _ => exact h
        obtain ⟨u, e6, e7⟩ := Res.bind_ok (hoom e2)
        split at e7
        · cases e7
        cases e7
        simp only [Res.every, e6]
        obtain ⟨t2, l2⟩ := (rg_propagate (k := true) (r := true) t1.rinv l1).ok e6
        simp only [id] at t2
        have hnv : x2.2.numVars = x.s.numVars := t2.sp.numVars.trans t1.sp.numVars
        have g2 := (hb.glob.step t1).step t2
        have c2 := (hb.cov.step t1).step t2
        have v2 := t2.sv rfl (t1.sv rfl hb.saved)
        have u2 : Unl x2.1 := t2.unl rfl (t1.unl rfl hb.unl)
        obtain ⟨y, q, ep, eq, hq, hcl, hbw⟩ := prepareQ_ok (p := o.ctl.lims cfg.evo x.cnf) (flags := o.ctl.flags) (x := x2) g2.dom (by show x.cnf = _; rw [hc, hnv])
        obtain ⟨p1, p2, p3, p4⟩ := prepare_spec g2.rinv.wf g2.dom u2 ep
        have hP : POK F x.s.numVars y.2 y.1 := by
          refine ⟨?_, ?_, by rw [p1]; exact l2, by rw [p1]; exact v2, p4, by rw [p1]; exact hnv⟩
          · rw [p1]; exact g2.step (Tr.flags (r := true) g2.rinv l2 p2)
          · intro c hc
            rw [p2.cert] at hc
            exact covered_same (fun i x => by rw [p2.lits]) (by rw [p1]; exact fun _ h => h) (c2 c hc)
        have ep' : prepare true cfg.evo x.cnf x2 = .ok y := ep
        rw [eq, ep']
        simp only [Res.bind_okk]
        have hnvy : y.1.2.numVars = x.cnf := by rw [hP.nv, hc]
        have hpl := pureLoopQ_ok (p := o.ctl.lims cfg.evo x.cnf) (e := y.2) (n := y.1.2.numVars) (vi := 1) (x := y.1) hq (Nat.le_refl _) (by show 1 + _ ≤ x.cnf + 1; omega)
        cases a' : pureLoop x.cnf y.2 y.1.2.numVars 1 y.1 with
        | ok x3 =>
          rw [show pureLoop (o.ctl.lims cfg.evo x.cnf).cnf y.2 y.1.2.numVars 1 y.1 = _ from a'] at hpl
          obtain ⟨q3, b, t3⟩ := hpl
          have h4 := pureLoop_spec (cnf := x.cnf) hP (n := y.1.2.numVars) (vi := 1) (Nat.le_refl _) (by rw [hP.nv]; omega)
          rw [a'] at h4
          have hE : EOK F x3.2 [] (x3, y.2) := ⟨[], by simpa using h4.glob, p3, h4.lim, h4.occ, id, id, rfl⟩
          have hG : GOK F x3.2 [] (o.ctl.lims cfg.evo x.cnf) ((x3, y.2), q3) :=
            ⟨hE, t3.ok, by show x.cnf = _; rw [hc, h4.nv], by rw [t3.bwd, hbw]; exact Nat.zero_le _⟩
          obtain ⟨cs, es, hsw⟩ := simplifyQ_eq (c := o.ctl) (oom := o.oom2) hG (t3.nil hcl)
          rw [b]
          simp only [Res.bind_okk]
          refine ⟨cs, ?_, fun u hu _ hK ha => ?_⟩
          · rw [es]
            rfl
          · obtain ⟨w, e8, e9⟩ := Res.bind_ok hu
            cases e9
            exact hsw w (Res.of_orOom e8) (t3.bwd.trans hbw) (hK.careful _ _) ha
        | _ =>
          rw [show pureLoop (o.ctl.lims cfg.evo x.cnf).cnf y.2 y.1.2.numVars 1 y.1 = _ from a'] at hpl
          exact ⟨[], by rw [show pureLoopQ _ _ _ _ _ _ = _ from hpl]; rfl, fun u hu => by rw [show pureLoopQ _ _ _ _ _ _ = _ from hpl] at hu; cases hu⟩
      | _ => exact ⟨[], rfl, fun u hu => by cases hu⟩
    | _ => exact ⟨[], rfl, fun u hu => by cases hu⟩

/-! ## the main loop -/

theorem stageStepQ_eq {F : Form} {nv : Nat} {cfg : Cfg} {c : Ctl} {o : StageOrc} {low : Nat → Bool} {x : Sol} (h : SOK F nv x) (hc : x.cnf = nv) :
    ∃ cs, stageStepQ cfg c o low x = stageStep cfg { o with cmds := cs } low x ∧
      ∀ y, stageStepQ cfg c o low x = .ok y → cfg.enable = true → c.Real → o.cycle = true → o.segment = true → ampleStage cfg c o low x = true → Lifts (y.db, y.s) := by
  have hun : ∀ cs, stageStep cfg { o with cmds := cs } low x = if o.timeout then .err else
      (clearAsserted (x.db, x.s.restart low)).bind fun x1 =>
        (x1.1.reduceRes x1.2 o.victims).bind fun x2 =>
          (if o.cycle then
            (vivify o.targets x2).bind fun x3 =>
              let y : Sol := { x with db := x3.1, s := x3.2 }
              if o.segment then segmentElim cfg { o with cmds := cs } y else .ok y
          else .ok { x with db := x2.1, s := x2.2 }).bind fun y => .ok { y with s := y.s.clearSaved } := fun _ => rfl
  simp only [hun]
  unfold stageStepQ
  by_cases ht : o.timeout = true
  · exact ⟨[], by simp [ht], by simp [ht]⟩
  simp only [ht, Bool.false_eq_true, if_false]
  unfold ampleStage
  obtain ⟨recs, g, e⟩ := h.glob
  have t1 : Tr true false x.db x.s x.db (x.s.restart low) := Tr.cancelUntil h.pinv.rinv low 0
  have h1 : ROK F nv x.store (x.db, x.s.restart low) := ⟨t1.sp.numVars.trans h.nvar, cancelUntil_lim0, t1.sp.heap h.heap, h.unl, recs, g.step t1, e⟩
  have g1 := g.step t1
  cases e1 : clearAsserted (x.db, x.s.restart low) with
  | ok x1 =>
    simp only [Res.bind_okk]
    have q1 := (rg_clearAsserted (r := true) (x := (x.db, x.s.restart low)) g1.rinv cancelUntil_lim0 g1.dom).ok e1
    have h2 := h1.step (y := x1) q1.1 q1.2 (q1.1.unl rfl)
    have r2 : RInv x1.1 x1.2 := q1.1.rinv
    obtain ⟨db2, hr⟩ := reduce_some (level := x1.2.level) (victims := o.victims) r2.wf
    have hrr : x1.1.reduceRes x1.2 o.victims = .ok (db2, x1.2) := by unfold Cdb.reduceRes; rw [hr]
    rw [hrr]
    simp only [Res.bind_okk]
    obtain ⟨t2, u2⟩ := reduce_tr (r := true) r2 h2.lim hr
    have h3 : ROK F nv x.store (db2, x1.2) := h2.step t2 h2.lim u2
    by_cases hcy : o.cycle = true
    · simp only [hcy, if_true]
      cases e3 : vivify o.targets (db2, x1.2) with
      | ok x3 =>
        simp only [Res.bind_okk]
        have q3 := (rg_vivify (r := true) (x := (db2, x1.2)) t2.rinv h3.lim (t2.dom (q1.1.dom g1.dom))).ok e3
        have h4 := h3.step (y := x3) q3.1 q3.2 (q3.1.unl rfl)
        by_cases hsg : o.segment = true
        · simp only [hsg, if_true]
          obtain ⟨cs, es, hsw⟩ := segmentElimQ_eq (cfg := cfg) (c := c) (o := o) (x := { x with db := x3.1, s := x3.2 }) h4 hc
          refine ⟨cs, by rw [es]; rfl, fun u hu hen hK _ _ ha => ?_⟩
          obtain ⟨w, e8, e9⟩ := Res.bind_ok hu
          cases e9
          refine hsw w e8 hen hK ?_
          simpa [Res.every, hrr, e3] using ha
        · exact ⟨[], by simp [hsg], fun _ _ _ _ _ h => absurd h (by simp [hsg])⟩
      | _ => exact ⟨[], rfl, fun u hu => by cases hu⟩
    · exact ⟨[], by simp [hcy], fun _ _ _ _ h => absurd h (by simp [hcy])⟩
  | _ => exact ⟨[], rfl, fun u hu => by cases hu⟩

theorem prepare_segment {m m' : StageManager} {n : Nat} {flag : Option Bool} (e : m.prepare n = some (flag, m')) (h : m'.segment ≠ m.segment) : flag = some true := by
  unfold StageManager.prepare at e
  split at e
  · cases e
  rename_i v l hn
  simp only [Option.some.injEq, Prod.mk.injEq] at e
  obtain ⟨h1, h2⟩ := e
  subst h2
  by_cases hv : v = 1
  · by_cases hs : m.nextIsNewSegment = true
    · rw [← h1]; simp [hv, hs]
    · exfalso; apply h; simp [hv, hs]; split <;> rfl
  · exfalso; apply h; simp [hv]; split <;> rfl

theorem timedStepQ_eq {F : Form} {nv : Nat} {cfg : Cfg} {t : TickQ} {z : Timed} (h : SOK F nv z.1) (hc : z.1.cnf = nv) :
    ∃ cs, timedStepQ cfg t z = timedStep cfg (t.tick cs) z ∧
      ∀ z', timedStepQ cfg t z = .ok z' → cfg.enable = true → t.ctl.Real → ampleTick cfg t z = true → z'.2.2.segment ≠ z.2.2.segment → Lifts (z'.1.db, z'.1.s) := by
  have hun : ∀ cs, timedStep cfg (t.tick cs) z = match decideStep t.t.o z.1.s with
    | none => .panic
    | some s =>
      match Stk.propagate t.t.o.q z.1.db s with
      | .ok db s1 => .ok ({ z.1 with db := db, s := s1 }, z.2)
      | .panic => .panic
      | .fuel => .fuel
      | .conflict db s1 l r =>
        if s1.dl = 0 then .unsat db s1
        else
          match handleConflict db s1 t.t.o.low t.t.o.rr t.t.o.drift l r with
          | .panic => .panic
          | .unsat db2 s2 => .unsat db2 s2
          | .ok db2 s2 => timedConflict cfg (t.tick cs) { z.1 with db := db2, s := s2 } z.2.1 z.2.2 := fun _ => rfl
  simp only [hun]
  unfold timedStepQ ampleTick
  cases hd : decideStep t.t.o z.1.s with
  | none => exact ⟨[], rfl, fun u hu => by cases hu⟩
  | some s =>
  obtain ⟨p1, t1, -⟩ := decideStep_spec (k := true) (r := false) h.pinv h.dom hd
  have hg := propagate_good (q := t.t.o.q) p1
  simp only []
  cases hp : Stk.propagate t.t.o.q z.1.db s with
  | ok db s1 => exact ⟨[], rfl, fun u hu _ _ _ hn => by cases hu; exact absurd rfl hn⟩
  | panic => exact ⟨[], rfl, fun u hu => by cases hu⟩
  | fuel => exact ⟨[], rfl, fun u hu => by cases hu⟩
  | conflict db s1 l r =>
  rw [hp] at hg
  obtain ⟨st, hco⟩ := hg
  have p2 := (st.all p1).1
  have t2 : Tr true false z.1.db z.1.s db s1 := t1.trans (st.trn p1.rinv)
  simp only []
  by_cases h0 : s1.dl = 0
  · exact ⟨[], by simp [h0], by simp [h0]⟩
  simp only [h0, if_false]
  cases hh : handleConflict db s1 t.t.o.low t.t.o.rr t.t.o.drift l r with
  | panic => exact ⟨[], rfl, fun u hu => by cases hu⟩
  | unsat db2 s2 => exact ⟨[], rfl, fun u hu => by cases hu⟩
  | ok db2 s2 =>
  have hdm := t2.dom h.dom
  have t3 := handle_tr p2 hdm (by omega) hco hh
  have hok : PInv db2 s2 := by
    have := handleConflict_spec (low := t.t.o.low) (rr := t.t.o.rr) (drift := t.t.o.drift) p2 (by omega) hco
    rw [hh] at this
    exact this.choose_spec.choose_spec.choose_spec.2.2.inv
  have h3 : SOK F nv { z.1 with db := db2, s := s2 } := h.step (t2.trans t3) hok
  simp only []
  unfold timedConflictQ timedConflict
  simp only [show ∀ cs, (t.tick cs).grows = t.t.grows from fun _ => rfl, show ∀ cs, (t.tick cs).o = t.t.o from fun _ => rfl]
  generalize (if t.t.grows then z.2.1 + 1 else z.2.1) = n1
  by_cases he : z.2.2.ended n1 = true
  · simp only [he, if_true]
    cases hm : z.2.2.prepare n1 with
    | none => exact ⟨[], rfl, fun u hu => by cases hu⟩
    | some fm =>
      obtain ⟨flag, m1⟩ := fm
      simp only []
      obtain ⟨cs, es, hsw⟩ := stageStepQ_eq (cfg := cfg) (c := t.ctl) (o := { t.t.st with cycle := flag.isSome, segment := flag.getD false }) (low := t.t.o.low2) h3 hc
      refine ⟨cs, by rw [es]; rfl, fun u hu hen hK ha hn => ?_⟩
      obtain ⟨w, e8, e9⟩ := Res.bind_ok hu
      cases e9
      have hf := prepare_segment hm hn
      exact hsw w e8 hen hK (by rw [hf]; rfl) (by rw [hf]; rfl) ha
  · exact ⟨[], by simp [he], fun u hu _ _ _ hn => by simp [he] at hu; cases hu; exact absurd rfl hn⟩

theorem timedStep_ok {F : Form} {nv : Nat} {cfg : Cfg} {t : Tick} {x y : Sol} {n n' : Nat} {m m' : StageManager} (hl : Luby.Inv m.luby) (h : SOK F nv x) (hc : x.cnf = nv)
    (hv : Lv x.db x.s) (e : timedStep cfg t (x, n, m) = .ok (y, n', m')) : SOK F nv y ∧ y.cnf = nv ∧ Lv y.db y.s ∧ Luby.Inv m'.luby := by
  have h1 := timedStep_searchStep (cfg := cfg) (t := t) (x := x) (n := n) hl
  rw [e] at h1
  simp only [Res.bind_okk] at h1
  have hsy : SOK F nv y := by
    have := searchStep_spec (cfg := cfg) (o := t.orc n m) h
    rw [← h1] at this
    exact this
  obtain ⟨c1, l1⟩ := searchStep_lv h hv h1.symm
  exact ⟨hsy, c1.trans hc, l1, timedStep_luby hl e⟩

/-- The ticks `ts` with the lists of commands `cs`. -/
def fill (ts : List TickQ) (cs : List (List ECmd)) : List Tick := ts.zipWith TickQ.tick cs

theorem fill_nil {ts : List TickQ} {u : Tick} (h : u ∈ fill ts (ts.map fun _ => [])) : u.st.cmds = [] := by
  induction ts with
  | nil => simp [fill] at h
  | cons t ts ih =>
    rw [fill, List.map_cons, List.zipWith_cons_cons] at h
    rcases List.mem_cons.1 h with rfl | h
    · rfl
    · exact ih h

/-- No clause contains a false literal. -/
theorem Lifts.noFalse {db : Cdb} {s : Stk} (hi : Inv db s) (ha : AC db s) (h : Lifts (db, s)) {c : Cls} (hc : Held db c) : ∀ l ∈ c, ¬ Fails s l := by
  obtain ⟨-, i, rfl⟩ := hc
  intro l hl hf
  have hv : InCls db l.var := ⟨i, l, hl, rfl⟩
  have hn : s.assign l.var = some (!l.pos) := hf
  have hm : l.var ∈ s.trail.map Lit.var := by
    by_contra hx
    exact ha _ hv ⟨by rw [hn]; simp, hx⟩
  obtain ⟨m, hm, e⟩ := List.mem_map.1 hm
  have hm' : s.assign m.var = some m.pos := hi.tv m hm
  have : m.neg = l := by
    rw [e, hn] at hm'
    cases l; cases m
    simp only [Option.some.injEq] at hm' e
    subst e
    simp [Lit.neg, ← hm']
  refine h m hm i ?_
  rw [this]; exact hl

theorem Lifts.swept {db : Cdb} {s : Stk} (hi : Inv db s) (ha : AC db s) (h : Lifts (db, s)) : Swept db s := fun _ hc ⟨l, hl, hf⟩ =>
  absurd hf (h.noFalse hi ha hc l hl)

theorem timedLoopQ_eq {F : Form} {nv : Nat} {cfg : Cfg} : ∀ {ts : List TickQ} {x : Sol} {n : Nat} {m : StageManager}, Luby.Inv m.luby → SOK F nv x → x.cnf = nv →
    Lv x.db x.s → ∃ cs, cs.length = ts.length ∧ timedLoopQ cfg ts (x, n, m) = timedLoop cfg (fill ts cs) (x, n, m) ∧
      (AC x.db x.s → cfg.enable = true → (∀ t ∈ ts, t.ctl.Real) → ampleTicks cfg ts (x, n, m) = true → TidyLoop cfg (fill ts cs) (x, n, m))
  | [], x, n, m, _, _, _, _ => ⟨[], rfl, rfl, fun _ _ _ _ => trivial⟩
  | t :: ts, x, n, m, hl, h, hc, hv => by
    obtain ⟨c, ec, hsw⟩ := timedStepQ_eq (cfg := cfg) (t := t) (z := (x, n, m)) h hc
    unfold timedLoopQ
    simp only []
    by_cases hr : x.s.running = true
    · rw [if_pos hr]
      unfold ampleTicks
      simp only [hr, if_true]
      rw [ec] at hsw ⊢
      cases e : timedStep cfg (t.tick c) (x, n, m) with
      | ok z =>
        obtain ⟨y, n', m'⟩ := z
        obtain ⟨h1, c1, v1, l1⟩ := timedStep_ok hl h hc hv e
        obtain ⟨cs, e1, e2, e3⟩ := timedLoopQ_eq (cfg := cfg) (ts := ts) (n := n') l1 h1 c1 v1
        refine ⟨c :: cs, by simp [e1], ?_, fun hac hen hK ha => ?_⟩
        · rw [fill, List.zipWith_cons_cons, timedLoop]
          simp only []
          rw [if_pos hr, e]
          exact e2
        · rw [Bool.and_eq_true] at ha
          have hacy : AC y.db y.s := by
            have h2 := timedStep_searchStep (cfg := cfg) (t := t.tick c) (x := x) (n := n) hl
            rw [e] at h2
            exact searchStep_ac h hac h2.symm
          rw [fill, List.zipWith_cons_cons, TidyLoop]
          intro z' e'
          rw [e] at e'
          cases e'
          refine ⟨fun hseg => .inr (.inr (Lifts.swept h1.pinv.inv hacy (hsw _ e hen (hK t (by simp)) ha.1 hseg))), ?_⟩
          exact e3 hacy hen (fun t ht => hK t (by simp [ht])) ha.2
      | _ =>
        refine ⟨c :: ts.map fun _ => [], by simp, ?_, fun _ _ _ _ => ?_⟩
        · rw [fill, List.zipWith_cons_cons, timedLoop]
          simp only []
          rw [if_pos hr, e]
          rfl
        · rw [fill, List.zipWith_cons_cons, TidyLoop]
          intro z' e'
          rw [e] at e'
          cases e'
    · refine ⟨(t :: ts).map fun _ => [], by simp, ?_, fun _ _ _ _ => tidyLoop_of_keeps (fun u hu => ?_) _⟩
      · rw [fill, List.map_cons, List.zipWith_cons_cons, timedLoop]
        simp only []
        rw [if_neg hr, if_neg hr]
      · have : u.st.cmds = [] := fill_nil hu
        rw [this]; simp

/-- The whole call is a call with some commands in place of the eliminators. -/
theorem solveQ_eq {F : Form} {cfg : Cfg} {p : PreQ} {m : StageManager} {ts : List TickQ} {low : Nat → Bool} {x : Sol} (h : Built F x) (hc : x.cnf = x.s.numVars)
    (hl : Luby.Inv m.luby) : ∃ c cs, cs.length = ts.length ∧ solveQ cfg p m ts low x = timedSolve cfg (p.pre c) m (fill ts cs) low x ∧
      (cfg.enable = true → p.ctl.Real → (∀ t ∈ ts, t.ctl.Real) → ampleRun cfg p m ts x = true → TidyRun cfg (p.pre c) m (fill ts cs) x) := by
  obtain ⟨c, e1, hsw⟩ := preprocessQ_eq (cfg := cfg) (o := p) h.bok.1 hc
  unfold solveQ timedSolve ampleRun
  rw [e1] at hsw ⊢
  cases e : preprocess cfg (p.pre c) x with
  | ok y =>
    obtain ⟨F', -, hz⟩ := preprocess_any h.bok.1 e
    obtain ⟨v1, -⟩ := preprocess_lv h e
    have hcy : y.cnf = x.s.numVars := by
      rw [← hc]
      unfold preprocess at e
      split at e
      · cases e
      obtain ⟨_, -, e⟩ := Res.bind_ok e
      obtain ⟨_, -, e⟩ := Res.bind_ok e
      obtain ⟨_, -, e⟩ := Res.bind_ok e
      obtain ⟨_, -, e⟩ := Res.bind_ok e
      obtain ⟨_, -, e⟩ := Res.bind_ok e
      cases e; rfl
    obtain ⟨cs, e2, e3, e4⟩ := timedLoopQ_eq (cfg := cfg) (ts := ts) (n := 0) (m := m.initialize 32) hl hz hcy v1
    refine ⟨c, cs, e2, ?_, fun hen hK hKs ha => ?_⟩
    · simp only [Res.bind_okk]
      rw [e3, e]
      rfl
    · rw [Bool.and_eq_true] at ha
      intro y' e'
      rw [e] at e'
      cases e'
      have hac := preprocess_ac h e
      exact ⟨.inr (.inr (Lifts.swept hz.pinv.inv hac (hsw y e hen hK ha.1))), e4 hac hen hKs ha.2⟩
  | _ =>
    refine ⟨c, ts.map fun _ => [], by simp, by rw [e]; rfl, fun _ _ _ _ => ?_⟩
    intro y' e'
    rw [e] at e'
    cases e'

end Splr
