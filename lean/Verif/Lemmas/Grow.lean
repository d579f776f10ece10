import Verif.Lemmas.AgainSpec
/-! Facts are permanent, and nothing but the facts is assumed: through a whole call of `solve`. -/
namespace Splr
open Stk

/-- Facts are kept, and the clauses afterwards follow from the clauses before and the facts. -/
structure Mono (db : Cdb) (s : Stk) (db' : Cdb) (s' : Stk) : Prop where
  root : ∀ l, Root s l → Root s' l
  sat : ∀ b, SatL db b → SatU s' b → SatL db' b

theorem Mono.refl (db : Cdb) (s : Stk) : Mono db s db s := ⟨fun _ h => h, fun _ h _ => h⟩

theorem Mono.trans {db : Cdb} {s : Stk} {db1 : Cdb} {s1 : Stk} {db2 : Cdb} {s2 : Stk} (h1 : Mono db s db1 s1) (h2 : Mono db1 s1 db2 s2) :
    Mono db s db2 s2 :=
  ⟨fun l hl => h2.root l (h1.root l hl), fun b hb hu => h2.sat b (h1.sat b hb fun l hl => hu l (h2.root l hl)) hu⟩

theorem Tr.mono {k r : Bool} {db : Cdb} {s : Stk} {db' : Cdb} {s' : Stk} (t : Tr k r db s db' s') : Mono db s db' s' := by
  obtain ⟨new, ha, hc, hm, -⟩ := t.new
  refine ⟨t.root, fun b hb hu => ?_⟩
  have hmc := mc_of_asg hb fun l hl => hu l (t.root l hl)
  have hns := hc.sat hmc
  have := hm _ hmc fun c hc => .of_sat (hns c hc)
  intro i hi
  obtain ⟨y, hy, hn⟩ := this.conf i hi
  exact ⟨y, hy, by simpa using hn⟩

/-! ## the eliminator -/

/-- The outcome of a function: if it returns, then `Mono`. -/
def GG (db : Cdb) (s : Stk) : Res (DS × El) → Prop
  | .ok y => Mono db s y.1.1 y.1.2
  | _ => True

theorem RG.gg {k r : Bool} {db : Cdb} {s : Stk} {Q : DS × El → Prop} {x : Res (DS × El)} (h : RG k r db s (·.1) Q x) : GG db s x := by
  cases x with
  | ok y => exact h.1.mono
  | _ => trivial

theorem eliminateVar_mono {evo v : Nat} {db : Cdb} {s : Stk} {e : El} (hi : RInv db s) (hdm : Dom db s) (hl : s.lim = []) (ho : OccInv e db s)
    (hn : s.assign v = none) (hab : e.aborted v = false) : GG db s (eliminateVar evo v (db, s) e) := by
  have hshape := eliminateVar_shape (evo := evo) hi hdm hl ho hn hab
  cases hr : eliminateVar evo v (db, s) e with
  | ok w =>
    rw [hr] at hshape
    obtain ⟨pos, neg, u, z, ⟨hp, hng, t, ⟨e0, hk⟩, hlits, hd, hgone, hkeep, hsub, hres1⟩, rfl⟩ := hshape
    refine t.mono.trans ⟨fun l hl => ?_, fun b hb _ i hi => ?_⟩
    · obtain ⟨f1, f2, -⟩ := makeEliminated_fields t.rinv.inv hk.un
      show Root (z.1.2.makeEliminated v) l
      rw [hd.stk]; unfold Root tr at *; rw [f1, f2]; exact hl
    · have e := hsub i hi
      rw [e] at hi ⊢; exact hb i hi
  | _ => trivial

theorem runCmd_mono {F : Form} {s0 : Stk} {recs : List Rec} {evo : Nat} {y : DS × El} (h : EOK F s0 recs y) (c : ECmd) :
    GG y.1.1 y.1.2 (runCmd evo y c) := by
  obtain ⟨recs', g, hb, hl, ho, hh, hs, hnv⟩ := h
  have hrefl : GG y.1.1 y.1.2 (.ok y) := .refl _ _
  cases c with
  | subsume cid did =>
    unfold runCmd
    simp only []
    split
    · exact hrefl
    · rename_i hc
      simp only [not_or, Cl.dead, List.isEmpty_iff] at hc
      exact (rg_trySubsume (r := true) g.rinv hl ho hc.1 hc.2.1 hc.2.2).gg
  | lifted l did =>
    unfold runCmd
    simp only []
    split
    · exact hrefl
    · rename_i hc
      simp only [not_or, not_not] at hc
      exact (rg_tryLifted (r := true) g.rinv hl ho hc.1).gg
  | elimVar v =>
    unfold runCmd
    simp only []
    split
    · exact hrefl
    · rename_i hc
      simp only [not_or, not_not, Bool.not_eq_true, not_lt] at hc
      exact eliminateVar_mono g.rinv g.dom hl ho hc.2.2.2.1 hc.2.2.2.2
  | propagate => exact (rg_propCmd (r := true) g.rinv hl ho).gg
  | retain v sift => exact .refl _ _

theorem runCmds_mono {F : Form} {s0 : Stk} {recs : List Rec} {evo : Nat} : ∀ {cs : List ECmd} {y : DS × El}, EOK F s0 recs y →
    GG y.1.1 y.1.2 (runCmds evo cs y)
  | [], _, _ => .refl _ _
  | c :: cs, y, h => by
    have h1 := runCmd_spec (evo := evo) h c
    have g1 := runCmd_mono (evo := evo) h c
    unfold runCmds
    cases hr : runCmd evo y c with
    | ok z =>
      rw [hr] at h1 g1
      have g2 := runCmds_mono (evo := evo) (cs := cs) h1
      simp only [Res.bind]
      cases hr2 : runCmds evo cs z with
      | ok w => rw [hr2] at g2; exact Mono.trans g1 g2
      | _ => trivial
    | _ => trivial

theorem simplify_mono {F : Form} {s0 : Stk} {recs : List Rec} {evo : Nat} {cmds : List ECmd} {oom : Bool} {y : DS × El} (h : EOK F s0 recs y) :
    GG y.1.1 y.1.2 (simplify true evo cmds oom y) := by
  unfold simplify
  rw [if_pos rfl]
  have := runCmds_mono (evo := evo) (cs := cmds ++ [.propagate]) h
  cases hr : runCmds evo (cmds ++ [.propagate]) y with
  | ok z =>
    rw [hr] at this
    simp only [Res.bind]
    split
    · trivial
    · exact Mono.trans this ⟨fun _ h => h, fun b hb _ => hb⟩
  | _ => trivial

/-! ## the main loop -/

theorem segmentElim_mono {F : Form} {nv : Nat} {cfg : Cfg} {o : StageOrc} {x y : Sol} (h : ROK F nv x.store (x.db, x.s))
    (e : segmentElim cfg o x = .ok y) : Mono x.db x.s y.db y.s := by
  obtain ⟨recs, g, -⟩ := h.glob
  unfold segmentElim at e
  cases hen : cfg.enable with
  | false =>
    rw [hen] at e
    simp only [prepare, Bool.not_false, if_true, Res.bind, simplify, Bool.false_eq_true, if_false] at e
    have hp := rg_propagate (k := true) (r := true) g.rinv h.lim
    cases hr : (propagateSandbox x.db x.s).toRes with
    | ok z =>
      rw [hr] at hp e
      simp only [] at e
      by_cases ho : o.oom = true
      · simp [ho] at e
      · simp only [ho, Bool.false_eq_true, if_false, Res.ok.injEq] at e
        subst e; exact hp.1.mono
    | _ => rw [hr] at e; simp at e
  | true =>
    rw [hen] at e
    cases hp : prepare true cfg.evo x.cnf (x.db, x.s) with
    | ok y0 =>
      rw [hp] at e
      obtain ⟨p1, p2, p3, p4⟩ := prepare_spec g.rinv.wf g.dom h.unl hp
      simp only [Res.bind] at e
      have tf := Tr.flags (r := true) g.rinv h.lim p2
      have hE : EOK F x.s recs y0 := by
        refine ⟨[], ?_, by rw [p3]; rfl, by rw [p1]; exact h.lim, p4, by rw [p1]; exact id, by rw [p1]; exact id, by rw [p1]⟩
        rw [List.append_nil, p1]
        exact g.step tf
      have hS := simplify_mono (evo := cfg.evo) (cmds := o.cmds) (oom := o.oom) hE
      cases hs : simplify true cfg.evo o.cmds o.oom y0 with
      | ok z =>
        rw [hs] at hS e
        simp only [Res.ok.injEq] at e
        subst e
        have h0 : Mono x.db x.s y0.1.1 y0.1.2 := by rw [p1]; exact tf.mono
        exact h0.trans hS
      | _ => rw [hs] at e; simp at e
    | _ => rw [hp] at e; simp [Res.bind] at e

theorem stageStep_mono {F : Form} {nv : Nat} {cfg : Cfg} {o : StageOrc} {low : Nat → Bool} {x y : Sol} (h : SOK F nv x)
    (e : stageStep cfg o low x = .ok y) : Mono x.db x.s y.db y.s := by
  unfold stageStep at e
  split at e
  · simp at e
  obtain ⟨recs, g, hst⟩ := h.glob
  have t1 : Tr true false x.db x.s x.db (x.s.restart low) := Tr.cancelUntil h.pinv.rinv low 0
  have h1 : ROK F nv x.store (x.db, x.s.restart low) := ⟨t1.sp.numVars.trans h.nvar, cancelUntil_lim0, t1.sp.heap h.heap, h.unl, recs, g.step t1, hst⟩
  have g1 := g.step t1
  have r1 := rg_clearAsserted (r := true) (x := (x.db, x.s.restart low)) g1.rinv cancelUntil_lim0 g1.dom
  cases hr1 : clearAsserted (x.db, x.s.restart low) with
  | ok x1 =>
    rw [hr1] at r1 e
    simp only [Res.bind] at e
    have h2 : ROK F nv x.store x1 := h1.step r1.1 r1.2 (r1.1.unl rfl)
    obtain ⟨recs1, g1, -⟩ := h2.glob
    unfold Cdb.reduceRes at e
    cases hr : x1.1.reduce x1.2.level o.victims with
    | none => rw [hr] at e; simp at e
    | some db2 =>
      obtain ⟨t2, u2⟩ := reduce_tr (r := true) g1.rinv h2.lim hr
      rw [hr] at e
      simp only [] at e
      have h3 : ROK F nv x.store (db2, x1.2) := h2.step t2 h2.lim u2
      have w : Mono x.db x.s db2 x1.2 := t1.mono.trans (Mono.trans (r1.1.mono) t2.mono)
      have hclr : ∀ z : Sol, RInv z.db z.s → Mono z.db z.s z.db z.s.clearSaved := fun z hz => (Tr.clearSaved (k := true) (r := true) hz).mono
      cases hcy : o.cycle with
      | false =>
        rw [hcy] at e
        simp only [Bool.false_eq_true, if_false, Res.ok.injEq] at e
        subst e
        obtain ⟨recs2, g2, -⟩ := h3.glob
        exact w.trans (hclr { x with db := db2, s := x1.2 } g2.rinv)
      | true =>
        rw [hcy] at e
        simp only [if_true] at e
        obtain ⟨recs2, g2, -⟩ := h3.glob
        have r3 := rg_vivify (r := true) (targets := o.targets) (x := (db2, x1.2)) g2.rinv h3.lim g2.dom
        cases hr3 : vivify o.targets (db2, x1.2) with
        | ok x3 =>
          rw [hr3] at r3 e
          simp only [] at e
          have h4 : ROK F nv x.store x3 := h3.step r3.1 r3.2 (r3.1.unl rfl)
          have w3 : Mono x.db x.s x3.1 x3.2 := w.trans r3.1.mono
          cases hsg : o.segment with
          | false =>
            rw [hsg] at e
            simp only [Bool.false_eq_true, if_false, Res.ok.injEq] at e
            subst e
            obtain ⟨recs3, g3, -⟩ := h4.glob
            exact w3.trans (hclr { x with db := x3.1, s := x3.2 } g3.rinv)
          | true =>
            rw [hsg] at e
            simp only [if_true] at e
            have h5 := segmentElim_spec (cfg := cfg) (o := o) (x := { x with db := x3.1, s := x3.2 }) h4
            cases hr5 : segmentElim cfg o { x with db := x3.1, s := x3.2 } with
            | ok z =>
              rw [hr5] at e h5
              have w5 := segmentElim_mono h4 hr5
              simp only [Res.ok.injEq] at e
              subst e
              obtain ⟨recs3, g3, -⟩ := ROK.glob h5
              exact w3.trans (w5.trans (hclr z g3.rinv))
            | _ => rw [hr5] at e; simp at e
        | _ => rw [hr3] at e; simp at e
  | _ => rw [hr1] at e; simp [Res.bind] at e

theorem searchStep_mono {F : Form} {nv : Nat} {cfg : Cfg} {o : Orc} {x y : Sol} (h : SOK F nv x) (e : searchStep cfg o x = .ok y) :
    Mono x.db x.s y.db y.s := by
  unfold searchStep at e
  cases hd : decideStep o x.s with
  | none => rw [hd] at e; simp at e
  | some s =>
    rw [hd] at e
    obtain ⟨p1, t1, -⟩ := decideStep_spec (k := true) (r := false) h.pinv h.dom hd
    simp only [] at e
    have hg := propagate_good (q := o.q) p1
    cases hp : propagate o.q x.db s with
    | ok db s1 =>
      rw [hp] at hg e
      simp only [Res.ok.injEq] at e
      subst e
      exact (t1.trans (hg.trn p1.rinv)).mono
    | panic => rw [hp] at e; simp at e
    | fuel => rw [hp] at e; simp at e
    | conflict db s1 l r =>
      rw [hp] at hg e
      obtain ⟨st, hc⟩ := hg
      have p2 := (st.all p1).1
      have t2 : Tr true false x.db x.s db s1 := t1.trans (st.trn p1.rinv)
      simp only [] at e
      split at e
      · simp at e
      · rename_i h0
        have hh := handleConflict_spec p2 (low := o.low) (rr := o.rr) (drift := o.drift) (by omega) hc
        cases hr : handleConflict db s1 o.low o.rr o.drift l r with
        | panic => rw [hr] at e; simp at e
        | unsat db2 s2 => rw [hr] at e; simp at e
        | ok db2 s2 =>
          rw [hr] at hh e
          obtain ⟨v, lv, seen, -, -, hok⟩ := hh
          have t3 := handle_tr p2 (t2.dom h.dom) (by omega) hc hr
          have h3 : SOK F nv { x with db := db2, s := s2 } := h.step (t2.trans t3) hok.inv
          have w3 : Mono x.db x.s db2 s2 := (t2.trans t3).mono
          simp only [] at e
          unfold afterConflict at e
          split at e
          · exact w3.trans (stageStep_mono h3 e)
          · split at e
            · simp only [Res.ok.injEq] at e
              subst e
              exact w3.trans (Tr.cancelUntil (k := true) hok.inv.rinv o.low2 0).mono
            · simp only [Res.ok.injEq] at e
              subst e; exact w3

theorem search_mono {F : Form} {nv : Nat} {cfg : Cfg} : ∀ {os : List Orc} {x y : Sol}, SOK F nv x → search cfg os x = .ok y →
    Mono x.db x.s y.db y.s
  | [], x, y, _, e => by simp only [search, Res.ok.injEq] at e; subst e; exact .refl _ _
  | o :: os, x, y, h, e => by
    unfold search at e
    split at e
    · have h1 := searchStep_spec (cfg := cfg) (o := o) h
      cases hr : searchStep cfg o x with
      | ok z =>
        rw [hr] at e h1
        exact (searchStep_mono h hr).trans (search_mono h1 e)
      | _ => rw [hr] at e; simp [Res.bind] at e
    · simp only [Res.ok.injEq] at e; subst e; exact .refl _ _

/-! ## the whole call -/

theorem root_elim {s : Stk} {low : Nat → Bool} {f : Nat → Bool} {l : Lit} :
    Root (({ s with elim := f } : Stk).restart low) l ↔ Root (s.cancelUntil low 0) l := by
  have e : (({ s with elim := f } : Stk).restart low).assign = (s.cancelUntil low 0).assign ∧
      (({ s with elim := f } : Stk).restart low).level = (s.cancelUntil low 0).level := by
    show (Stk.cancelUntil { s with elim := f } low 0).assign = _ ∧ (Stk.cancelUntil { s with elim := f } low 0).level = _
    obtain ⟨a1, a2, -, a4, -⟩ := saveTrail_fields s low 0
    obtain ⟨b1, b2, -, b4, -⟩ := saveTrail_fields { s with elim := f } low 0
    unfold Stk.cancelUntil
    by_cases hl : s.dl ≤ 0
    · rw [if_pos hl, if_pos (show Stk.dl { s with elim := f } ≤ 0 from hl)]; exact ⟨rfl, rfl⟩
    · rw [if_neg hl, if_neg (show ¬ Stk.dl { s with elim := f } ≤ 0 from hl)]
      simp only [unassignFrom, a1, a2, a4, b1, b2, b4, and_self]
  unfold Root tr
  rw [e.1, e.2]

theorem pureLoop_mono {nv cnf : Nat} {e : El} : ∀ {n vi : Nat} {F : Form} {x y : DS}, Glob F x.1 x.2 [] → x.2.lim = [] → x.2.numVars = nv →
    1 ≤ vi → vi + n ≤ nv + 1 → pureLoop cnf e n vi x = .ok y → Mono x.1 x.2 y.1 y.2
  | 0, _, F, x, y, _, _, _, _, _, eq => by simp only [pureLoop, Res.ok.injEq] at eq; subst eq; exact .refl _ _
  | n + 1, vi, F, x, y, g, hl, hnv, h1, h2, eq => by
    have hstep : ∀ l : Lit, l.var = vi → x.2.assign vi = none →
        (x.2.assignRootRes (x.1.log (.add [l])) l).bind (pureLoop cnf e n (vi + 1)) = .ok y → Mono x.1 x.2 y.1 y.2 := by
      rintro l rfl hn eq
      have hok : Okv x.2 l.var := by
        refine ⟨h1, by omega, ?_⟩
        cases he : x.2.elim l.var with
        | false => rfl
        | true => obtain ⟨r, hr, -⟩ := g.st.cover _ he; simp at hr
      obtain ⟨s1, e1, g1, l1, -, n1⟩ := g.assume hl hn hok
      obtain ⟨s2, e2, -, -, -, hroot, -⟩ := assignRoot_new g.rinv.inv hl hn
      have e3 : x.2.assignRootRes (x.1.log (.add [l])) l = .ok (x.1.log (.add [l]), s2) := by unfold Stk.assignRootRes; rw [e2]
      rw [e1] at e3 eq
      simp only [Res.ok.injEq, Prod.mk.injEq, true_and] at e3
      subst e3
      have w1 : Mono x.1 x.2 (x.1.log (.add [l])) s1 := ⟨fun m hm => (hroot m).2 (.inl hm), fun b hb _ => hb⟩
      exact w1.trans (pureLoop_mono (x := (x.1.log (.add [l]), s1)) g1 l1 (n1.trans hnv) (by omega) (by omega) eq)
    unfold pureLoop at eq
    split at eq
    · exact pureLoop_mono g hl hnv (by omega) (by omega) eq
    rename_i hn
    have hn : x.2.assign vi = none := by simpa using hn
    split at eq
    · simp at eq
    split at eq
    · exact pureLoop_mono g hl hnv (by omega) (by omega) eq
    split at eq
    · exact hstep ⟨vi, true⟩ rfl hn eq
    split at eq
    · exact hstep ⟨vi, false⟩ rfl hn eq
    · exact pureLoop_mono g hl hnv (by omega) (by omega) eq

theorem preprocess_mono {F : Form} {cfg : Cfg} (hen : cfg.enable = true) {o : Pre} {x y' : Sol} (h : AgOK F x) (eq : preprocess cfg o x = .ok y') :
    Mono x.db x.s y'.db y'.s := by
  obtain ⟨G, hG, ha⟩ := h.aok
  have g := ha.glob
  unfold preprocess at eq
  by_cases hoom : o.oom = true
  · rw [if_pos hoom] at eq; simp at eq
  rw [if_neg hoom] at eq
  have hv := rg_vivify (r := true) (targets := o.targets) (x := (x.db, x.s)) g.rinv ha.lim g.dom
  cases hr : vivify o.targets (x.db, x.s) with
  | unsat db s => rw [hr] at eq; simp [Res.bind] at eq
  | err => rw [hr] at eq; simp [Res.bind] at eq
  | panic => rw [hr] at eq; simp [Res.bind] at eq
  | fuel => rw [hr] at eq; simp [Res.bind] at eq
  | ok x1 =>
  rw [hr] at hv eq
  obtain ⟨t1, l1⟩ := hv
  simp only [id] at t1
  have g1 := g.step t1
  have v1 := t1.sv rfl ha.saved
  have hp := rg_propagate (k := true) (r := true) g1.rinv l1
  simp only [Res.bind] at eq
  cases hr2 : (Stk.propagateSandbox x1.1 x1.2).toRes with
  | unsat db s => rw [hr2] at eq; cases hq : o.oom1 <;> simp [hq, Res.orOom] at eq
  | err => rw [hr2] at eq; simp [Res.orOom] at eq
  | panic => rw [hr2] at eq; simp [Res.orOom] at eq
  | fuel => rw [hr2] at eq; simp [Res.orOom] at eq
  | ok x2 =>
  rw [hr2] at hp eq
  obtain ⟨t2, l2⟩ := hp
  simp only [id] at t2
  by_cases ho : o.oom1 = true
  · simp [ho, Res.orOom] at eq
  simp only [ho, Bool.false_eq_true, if_false, Res.orOom] at eq
  have g2 := g1.step t2
  have v2 := t2.sv rfl v1
  have u2 : Unl x2.1 := t2.unl rfl (t1.unl rfl ha.unl)
  rw [hen] at eq
  cases hr3 : prepare true cfg.evo x.cnf x2 with
  | unsat db s => exact absurd hr3 prepare_not_unsat
  | err => rw [hr3] at eq; simp at eq
  | panic => rw [hr3] at eq; simp at eq
  | fuel => rw [hr3] at eq; simp at eq
  | ok y =>
  rw [hr3] at eq
  obtain ⟨p1, p2, p3, p4⟩ := prepare_spec g2.rinv.wf g2.dom u2 hr3
  simp only [] at eq
  have tf := Tr.flags (r := true) g2.rinv l2 p2
  have hQ : QOK G x.s.numVars y.2 y.1 := by
    refine ⟨?_, by rw [p1]; exact l2, by rw [p1]; exact v2, by rw [p1]; exact t2.sp.numVars.trans t1.sp.numVars, p4⟩
    rw [p1]; exact g2.step tf
  have wf : Mono x2.1 x2.2 y.1.1 y.1.2 := by rw [p1]; exact tf.mono
  have h4 := pureLoop_again (cnf := x.cnf) hQ (n := y.1.2.numVars) (vi := 1) (Nat.le_refl _) (by rw [hQ.nv]; omega)
  cases hr4 : pureLoop x.cnf y.2 y.1.2.numVars 1 y.1 with
  | unsat db s => rw [hr4] at h4; exact h4.elim
  | err => rw [hr4] at eq; simp at eq
  | panic => rw [hr4] at eq; simp at eq
  | fuel => rw [hr4] at eq; simp at eq
  | ok x3 =>
  have w4 := pureLoop_mono hQ.glob hQ.lim hQ.nv (n := y.1.2.numVars) (vi := 1) (Nat.le_refl _) (by rw [hQ.nv]; omega) hr4
  rw [hr4] at h4 eq
  obtain ⟨H, hH, h4⟩ := h4
  have hE : EOK H x3.2 [] (x3, y.2) := ⟨[], by simpa using h4.glob, p3, h4.lim, h4.occ, id, id, rfl⟩
  have hS := simplify_mono (evo := cfg.evo) (cmds := o.cmds) (oom := o.oom2) hE
  simp only [] at eq
  cases hr5 : simplify true cfg.evo o.cmds o.oom2 (x3, y.2) with
  | unsat db s => rw [hr5] at eq; cases hq : o.oom2 <;> simp [hq] at eq
  | err => rw [hr5] at eq; simp at eq
  | panic => rw [hr5] at eq; simp at eq
  | fuel => rw [hr5] at eq; simp at eq
  | ok z =>
  rw [hr5] at hS eq
  simp only [Res.ok.injEq] at eq
  subst eq
  exact t1.mono.trans (t2.mono.trans (wf.trans (w4.trans (Mono.trans hS ⟨fun _ h => h, fun b hb _ => hb⟩))))

/-- The same without the eliminator. -/
theorem preprocess_mono_off {F : Form} {cfg : Cfg} (hen : cfg.enable = false) {o : Pre} {x y : Sol} (h : AgOK F x) (e : preprocess cfg o x = .ok y) :
    Mono x.db x.s y.db y.s := by
  obtain ⟨G, -, ha⟩ := h.aok
  have g := ha.glob
  unfold preprocess at e
  split at e
  · simp at e
  have hv := rg_vivify (r := true) (targets := o.targets) (x := (x.db, x.s)) g.rinv ha.lim g.dom
  cases hr : vivify o.targets (x.db, x.s) with
  | ok x1 =>
    rw [hr] at hv e
    obtain ⟨t1, l1⟩ := hv
    simp only [id] at t1
    have g1 := g.step t1
    have hp := rg_propagate (k := true) (r := true) g1.rinv l1
    simp only [Res.bind] at e
    cases hr2 : (Stk.propagateSandbox x1.1 x1.2).toRes with
    | ok x2 =>
      rw [hr2] at hp e
      obtain ⟨t2, l2⟩ := hp
      simp only [id] at t2
      by_cases ho : o.oom1 = true
      · simp [ho, Res.orOom] at e
      simp only [ho, Bool.false_eq_true, if_false, Res.orOom, hen, prepare, Bool.not_false, if_true] at e
      have g2 := g1.step t2
      cases hr4 : pureLoop x.cnf El.new x2.2.numVars 1 x2 with
      | ok x3 =>
        have w4 := pureLoop_mono g2 l2 rfl (Nat.le_refl _) (by omega) hr4
        rw [hr4] at e
        have hA : AOK G x2.2.numVars x2 := ⟨g2, l2, t2.sv rfl (t1.sv rfl ha.saved), t2.unl rfl (t1.unl rfl ha.unl), rfl⟩
        obtain ⟨F', -, h4⟩ := pureLoop_any hA (Nat.le_refl _) (by omega) hr4
        simp only [simplify, Bool.false_eq_true, if_false] at e
        have hq := rg_propagate (k := true) (r := true) h4.glob.rinv h4.lim
        cases hr5 : (Stk.propagateSandbox x3.1 x3.2).toRes with
        | ok x4 =>
          rw [hr5] at hq e
          obtain ⟨t5, l5⟩ := hq
          simp only [id] at t5
          by_cases ho2 : o.oom2 = true
          · simp [ho2, Res.bind] at e
          simp only [ho2, Bool.false_eq_true, if_false, Res.bind, Res.ok.injEq] at e
          subst e
          exact t1.mono.trans (t2.mono.trans (w4.trans (t5.mono.trans ⟨fun _ h => h, fun b hb _ => hb⟩)))
        | unsat db s => rw [hr5] at e; cases hq : o.oom2 <;> simp [hq, Res.bind] at e
        | _ => rw [hr5] at e; simp [Res.bind] at e
      | _ => rw [hr4] at e; simp at e
    | unsat db s => rw [hr2] at e; cases hq : o.oom1 <;> simp [hq, Res.orOom] at e
    | _ => rw [hr2] at e; simp [Res.orOom] at e
  | _ => rw [hr] at e; simp [Res.bind] at e

/-- The answer SAT. -/
theorem finish_mono {F : Form} {nv : Nat} {low : Nat → Bool} {u y : Sol} {vals : List Int} (hs : SOK F nv u) (e : finish low u = .sat vals y) :
    Mono u.db u.s y.db y.s := by
  have hy : y = { u with s := ({ u.s with elim := fun v => if v = 0 then u.s.elim 0 else false } : Stk).restart low } := by
    unfold finish at e
    split at e
    · simp at e
    · split at e
      · simp at e
      · split at e
        · simp at e
        · simp only [Ans.sat.injEq] at e; exact e.2.symm
  obtain ⟨recs, g, -⟩ := SOK.glob hs
  refine (Tr.cancelUntil (k := true) g.rinv low 0).mono.trans ⟨fun l hl => ?_, fun b hb _ => by rw [hy]; exact hb⟩
  rw [hy]
  exact (root_elim (s := u.s) (low := low) (f := fun v => if v = 0 then u.s.elim 0 else false)).2 hl

/-- A whole call that answers SAT. -/
theorem solve_mono {F : Form} {cfg : Cfg} (hen : cfg.enable = true) {p : Pre} {os : List Orc} {low : Nat → Bool} {x y : Sol} {vals : List Int}
    (h : AgOK F x) (e : solve cfg p os low x = .sat vals y) : Mono x.db x.s y.db y.s := by
  have hp := preprocess_again hen (o := p) h
  unfold solve at e
  cases hr : preprocess cfg p x with
  | ok z =>
    rw [hr] at hp e
    obtain ⟨G, hG, hz⟩ := hp
    simp only [Res.bind] at e
    have hs := search_spec (cfg := cfg) (os := os) hz
    cases hr2 : search cfg os z with
    | ok u =>
      rw [hr2] at hs e
      simp only [] at e
      by_cases hrun : u.s.running = true
      · rw [if_pos hrun] at e; simp at e
      rw [if_neg hrun] at e
      exact (preprocess_mono hen h hr).trans ((search_mono hz hr2).trans (finish_mono hs e))
    | _ => rw [hr2] at e; simp at e
  | _ => rw [hr] at e; simp [Res.bind] at e

end Splr
