import Verif.Lemmas.QueueElim
/-! # The array queue: the ends of stages, preprocessing and `solve` -/
namespace Splr
open Stk QStk

/-- The same solver, and the trails agree. -/
structure SolRel (y : Sol) (x : SolQ) : Prop where
  db : x.db = y.db
  rel : QRel y.s x.x
  store : x.store = y.store
  cnf : x.cnf = y.cnf

theorem segmentElim_sim {F : Form} {nv : Nat} {cfg : Cfg} {o : StageOrc} {y : Sol} {x : SolQ} (hx : SolRel y x) (h : ROK F nv y.store (y.db, y.s))
    (hk : KT (y.db, y.s)) : RRel SolRel (segmentElim cfg o y) (QStk.segmentElimQ cfg o x) := by
  unfold segmentElim QStk.segmentElimQ
  obtain ⟨recs, g, e⟩ := h.glob
  have c0 : CE True (y.db, y.s) := ⟨hk.rinv.wf, hk.rinv.inv, h.lim, hk.wt⟩
  rw [hx.cnf]
  refine (prepare_sim (x := (y.db, y.s)) (y := (x.db, x.x)) ⟨hx.db, hx.rel⟩).bind fun a b ea hab => ?_
  have c1 : CE True a.1 := ce_prepare ea c0
  refine RRel.bind (R := ERel) ?_ fun c d _ hcd => .ok ⟨hcd.d.db, hcd.d.rel, by simp only []; rw [hx.store, hcd.e], by rfl⟩
  cases hen : cfg.enable with
  | false =>
    rw [hen] at ea
    simp only [prepare, Bool.not_false, if_true, Res.ok.injEq] at ea
    subst ea
    exact simplify_sim' hab hk
  | true =>
    rw [hen] at ea
    obtain ⟨p1, p2, p3, p4⟩ := prepare_spec g.rinv.wf g.dom h.unl ea
    have hE : EOK F y.s recs a := by
      refine ⟨[], ?_, by rw [p3]; rfl, by rw [p1]; exact h.lim, p4, by rw [p1]; exact id, by rw [p1]; exact id, by rw [p1]⟩
      rw [List.append_nil, p1]
      exact g.step (Tr.flags (r := true) g.rinv h.lim p2)
    exact simplify_sim hab hE c1

theorem stageStep_sim {F : Form} {nv : Nat} {cfg : Cfg} {o : StageOrc} {low : Nat → Bool} {y : Sol} {x : SolQ} (hx : SolRel y x) (h : SOK F nv y)
    (hw : Lv y.db y.s) : RRel SolRel (stageStep cfg o low y) (QStk.stageStepQ cfg o low x) := by
  obtain ⟨Z, hw, -⟩ := hw
  unfold stageStep QStk.stageStepQ
  split
  · exact .err
  obtain ⟨recs, g, e⟩ := h.glob
  have t1 : Tr true false y.db y.s y.db (y.s.restart low) := Tr.cancelUntil h.pinv.rinv low 0
  have h1 : ROK F nv y.store (y.db, y.s.restart low) := ⟨t1.sp.numVars.trans h.nvar, cancelUntil_lim0, t1.sp.heap h.heap, h.unl, recs, g.step t1, e⟩
  have g1 := g.step t1
  have hw1 := hw.mono (E' := fun _ _ => True) fun _ _ _ => trivial
  have k0 : KT (y.db, y.s.restart low) := ⟨t1.rinv, t1.dom h.dom, hw1.cancelUntil' h.pinv.inv low 0⟩
  obtain ⟨x0, e0, hx0⟩ := hx.rel.cancelUntil low 0
  rw [e0, ResQ.lift_some]
  refine (clearAsserted_sim (x := (y.db, y.s.restart low)) (y := (x.db, x0)) k0 cancelUntil_lim0 ⟨hx.db, hx0⟩).bind fun x1 w1 e1 hr1 => ?_
  have k1 := kw_clearAsserted k0 (cancelUntil_lim0) e1
  have q1 := (rg_clearAsserted (r := true) (x := (y.db, y.s.restart low)) g1.rinv cancelUntil_lim0 g1.dom).ok e1
  have h2 := h1.step (y := x1) q1.1 q1.2 (q1.1.unl rfl)
  obtain ⟨db2, hr⟩ := reduce_some (level := x1.2.level) (victims := o.victims) k1.1.rinv.wf
  have e5 : w1.2.s.level = x1.2.level := by rw [← hr1.rel.same]
  unfold Cdb.reduceRes QStk.reduceResQ
  rw [hr1.db, e5, hr, ResQ.lift_some]
  obtain ⟨t2, u2⟩ := reduce_tr (r := true) k1.1.rinv h2.lim hr
  have h3 : ROK F nv y.store (db2, x1.2) := h2.step t2 h2.lim u2
  have k2 : KT (db2, x1.2) := ⟨t2.rinv, t2.dom k1.1.dom, reduce_wt k1.1.rinv.wf k1.1.wt hr⟩
  simp only [Res.bind, ResQ.bind]
  refine RRel.bind (R := SolRel) ?_ fun a b _ hab => ?_
  · split
    · refine (vivify_sim (x := (db2, x1.2)) (y := (db2, w1.2)) k2 h3.lim ⟨rfl, hr1.rel⟩).bind fun x3 w3 e3 hr3 => ?_
      have k3 := kw_vivify k2 k1.2 e3
      have q3 := (rg_vivify (r := true) (x := (db2, x1.2)) k2.rinv h3.lim k2.dom).ok e3
      have h4 := h3.step (y := x3) q3.1 q3.2 (q3.1.unl rfl)
      split
      · exact segmentElim_sim (y := { y with db := x3.1, s := x3.2 }) ⟨hr3.db, hr3.rel, hx.store, hx.cnf⟩ h4 k3.1
      · exact .ok ⟨hr3.db, hr3.rel, hx.store, hx.cnf⟩
    · exact .ok ⟨rfl, hr1.rel, hx.store, hx.cnf⟩
  · obtain ⟨x4, e4, h4, -⟩ := hab.rel.clearSaved
    rw [e4, ResQ.lift_some]
    exact .ok ⟨hab.db, h4, hab.store, hab.cnf⟩

theorem RRel.orOom {α β : Type} {R : α → β → Prop} {r : Res α} {r' : ResQ β} {oom : Bool} (h : RRel R r r') : RRel R (r.orOom oom) (r'.orOom oom) := by
  cases h with
  | ok h => exact .ok h
  | unsat h => unfold Res.orOom ResQ.orOom; simp only []; split <;> [exact .err; exact .unsat h]
  | err => exact .err
  | panic => exact .panic
  | fuel => exact .fuel

theorem Res.orOom_ok {α : Type} {r : Res α} {b : Bool} {a : α} (h : r.orOom b = .ok a) : r = .ok a := by
  cases r with
  | unsat db s => unfold Res.orOom at h; simp only [] at h; split at h <;> simp at h
  | _ => exact h

theorem preprocess_sim {F : Form} {cfg : Cfg} {o : Pre} {y : Sol} {x : SolQ} (hx : SolRel y x) (h : Built F y) :
    RRel SolRel (preprocess cfg o y) (QStk.preprocessQ cfg o x) := by
  have hb := h.bok.1
  unfold preprocess QStk.preprocessQ
  split
  · exact .err
  have k0 : KT (y.db, y.s) := ⟨hb.rinv, hb.dom, (h.bw.wt hb.lim).mono fun _ _ _ => trivial⟩
  refine (vivify_sim (x := (y.db, y.s)) (y := (x.db, x.x)) k0 hb.lim ⟨hx.db, hx.rel⟩).bind fun x1 w1 e1 hr1 => ?_
  obtain ⟨t1, l1⟩ := (rg_vivify (r := true) (x := (y.db, y.s)) hb.rinv hb.lim hb.dom).ok e1
  simp only [id] at t1
  have k1 := kw_vivify k0 hb.lim e1
  refine RRel.bind (R := DRel) (RRel.orOom ((sandbox_sim k1.1 hr1).bind fun a b _ hab => by split <;> [exact .err; exact .ok hab])) fun x2 w2 e2 hr2 => ?_
  obtain ⟨u, e6, e7⟩ := Res.bind_ok (Res.orOom_ok e2)
  split at e7
  · cases e7
  cases e7
  obtain ⟨t2, l2⟩ := (rg_propagate (k := true) (r := true) k1.1.rinv l1).ok e6
  simp only [id] at t2
  have k2 := kw_propagate k1.1 k1.2 e6
  have hnv : x2.2.numVars = y.s.numVars := t2.sp.numVars.trans t1.sp.numVars
  rw [hx.cnf]
  refine (prepare_sim hr2).bind fun z w e3 hr3 => ?_
  have g2 := (hb.glob.step t1).step t2
  have c2 := (hb.cov.step t1).step t2
  have v2 := t2.sv rfl (t1.sv rfl hb.saved)
  have u2 : Unl x2.1 := t2.unl rfl (t1.unl rfl hb.unl)
  have c3 : CE True x2 := ⟨k2.1.rinv.wf, k2.1.rinv.inv, k2.2, k2.1.wt⟩
  have c4 : CE True z.1 := ce_prepare e3 c3
  have e8 : w.1.2.s.numVars = z.1.2.numVars := by rw [← hr3.d.rel.same]
  have hfin : ∀ (a : DS × El) (b : DQ × El), ERel a b → RRel SolRel
      (Res.ok { y with db := a.1.1, s := a.1.2.rebuildOrder, store := y.store ++ a.2.lits })
      (ResQ.lift b.1.2.rebuildOrderQ fun x5 => .ok ({ db := b.1.1, x := x5, store := x.store ++ b.2.lits, cnf := y.cnf } : SolQ)) := by
    intro a b hab
    obtain ⟨x5, e5, h5⟩ := hab.d.rel.rebuildOrder
    rw [e5, ResQ.lift_some]
    exact .ok ⟨hab.d.db, h5, by simp only []; rw [hx.store, hab.e], by rfl⟩
  rw [e8, hr3.e]
  cases hen : cfg.enable with
  | true =>
    rw [hen] at e3
    obtain ⟨p1, p2, p3, p4⟩ := prepare_spec g2.rinv.wf g2.dom u2 e3
    have hP : POK F y.s.numVars z.2 z.1 := by
      refine ⟨?_, ?_, by rw [p1]; exact l2, by rw [p1]; exact v2, p4, by rw [p1]; exact hnv⟩
      · rw [p1]; exact g2.step (Tr.flags (r := true) g2.rinv l2 p2)
      · intro c hc
        rw [p2.cert] at hc
        exact covered_same (fun i x => by rw [p2.lits]) (by rw [p1]; exact fun _ h => h) (c2 c hc)
    refine (pureLoop_sim hr3.d hP.lim rfl (Nat.le_refl _) (by omega)).bind fun x3 w3 e4 hr4 => ?_
    have h4 := pureLoop_spec (cnf := y.cnf) hP (n := z.1.2.numVars) (vi := 1) (Nat.le_refl _) (by rw [hP.nv]; omega)
    rw [e4] at h4
    have hE : EOK F x3.2 [] (x3, z.2) := ⟨[], by simpa using h4.glob, p3, h4.lim, h4.occ, id, id, rfl⟩
    exact RRel.bind (R := ERel) (simplify_sim (y := (x3, z.2)) (z := (w3, z.2)) ⟨hr4, rfl⟩ hE (ce_pureLoop c4 e4)).orOom fun a b _ hab => hfin a b hab
  | false =>
    rw [hen] at e3
    simp only [prepare, Bool.not_false, if_true, Res.ok.injEq] at e3
    subst e3
    refine (pureLoop_sim hr3.d l2 rfl (Nat.le_refl _) (by omega)).bind fun x3 w3 e4 hr4 => ?_
    have hA : AOK F y.s.numVars x2 := ⟨g2, l2, v2, u2, hnv⟩
    obtain ⟨F', hF, h4⟩ := pureLoop_any hA (Nat.le_refl _) (by show 1 + x2.2.numVars ≤ _; rw [hnv]; omega) e4
    exact RRel.bind (R := ERel) (RRel.orOom (simplify_sim' (y := (x3, _)) (z := (w3, _)) ⟨hr4, rfl⟩ (.of (ce_pureLoop c4 e4) h4.glob.dom))) fun a b _ hab => hfin a b hab

/-! ## the main loop -/

theorem searchStep_sim {cfg : Cfg} {F : Form} {y : Sol} {x : SolQ} (h : Head cfg F y) (hr : y.s.running = true) (hx : SolRel y x) (o : Orc) :
    ∃ pick, RRel SolRel (searchStep cfg { o with pick := pick } y) (QStk.searchStepQ cfg o x) := by
  obtain ⟨pick, s, x1, e1, e2, h1⟩ := decide_sim h hr hx.rel o
  refine ⟨pick, ?_⟩
  have hd : Decided cfg F y.db s := .mk h hr e1
  obtain ⟨F', -, hs⟩ := h.sok
  obtain ⟨Z, hw, hn⟩ := h.lv
  obtain ⟨p1, t1, -⟩ := decideStep_spec (k := true) (r := false) hs.pinv hs.dom e1
  have w1 := decideStep_wt hs.pinv hw e1
  have n1 : Nz Z y.db s := hn.decideStep (fun l => t1.root l) e1
  have hg := propagate_good (q := o.q) p1
  have hpw := propagate_wtB (q := o.q) p1 w1
  unfold searchStep QStk.searchStepQ
  rw [e1, e2, hx.db]
  simp only []
  have hp := propagate_sim (q := o.q) hd h1
  have hcf := fun db' s' l r => Conflict.mk (db' := db') (s' := s') (l := l) (r := r) (q := o.q) hd
  revert hp hcf hg hpw
  generalize propagate o.q y.db s = r
  generalize QStk.propagateQ o.q y.db x1 = r'
  intro hg hpw hp hcf
  cases hp with
  | @ok db1 s1 x1 h1 => exact .ok ⟨rfl, h1, hx.store, hx.cnf⟩
  | panic => exact .panic
  | fuel => exact .fuel
  | @conflict db1 s1 x2 l r h2 =>
    have e3 : x2.s.dl = s1.dl := by rw [← h2.same]; rfl
    obtain ⟨st, hco⟩ := hg
    have p2 := (st.all p1).1
    have n2 : Nz Z db1 s1 := st.nz p1.wf n1
    have t2 : Tr true false y.db y.s db1 s1 := t1.trans (st.trn p1.rinv)
    simp only []
    rw [e3]
    split
    · exact .unsat h2
    rename_i h0
    have hpos : 0 < s1.dl := by omega
    have hh := conflict_sim (hcf db1 s1 l r rfl) h2 o.low o.rr o.drift
    have hh2 := fun db2 s2 => handle_wt (low := o.low) (rr := o.rr) (drift := o.drift) (db' := db2) (s' := s2) p2 hpos hpw hco
    have hh3 := fun db2 s2 => n2.handle (low := o.low) (rr := o.rr) (drift := o.drift) (db' := db2) (s' := s2) p2 (t2.dom hs.dom) hpos hco
    have hh4 := fun db2 s2 => handle_tr (low := o.low) (rr := o.rr) (drift := o.drift) (db' := db2) (s' := s2) p2 (t2.dom hs.dom) hpos hco
    have hh5 := handleConflict_spec (low := o.low) (rr := o.rr) (drift := o.drift) p2 hpos hco
    revert hh hh2 hh3 hh4 hh5
    generalize handleConflict db1 s1 o.low o.rr o.drift l r = z
    generalize handleConflictQ db1 x2 o.low o.rr o.drift l r = z'
    intro hh hh2 hh3 hh4 hh5
    cases hh with
    | panic => exact .panic
    | unsat h3 => exact .unsat h3
    | @ok db2 s2 x3 h3 =>
      have w3 := hh2 db2 s2 rfl
      have n3 := hh3 db2 s2 rfl
      have t3 := hh4 db2 s2 rfl
      have hok : PInv db2 s2 := hh5.choose_spec.choose_spec.choose_spec.2.2.inv
      have hS : SOK F' y.s.numVars { y with db := db2, s := s2 } := by
        have := hs.step (t2.trans t3) hok
        rw [hs.nvar]; exact this
      simp only [afterConflict, QStk.afterConflictQ]
      cases o.stage with
      | some st => exact stageStep_sim (y := { y with db := db2, s := s2 }) ⟨rfl, h3, hx.store, hx.cnf⟩ hS ⟨Z, w3, n3⟩
      | none =>
        cases o.restart with
        | false => exact .ok ⟨rfl, h3, hx.store, hx.cnf⟩
        | true =>
          obtain ⟨x4, e4, h4⟩ := h3.cancelUntil o.low2 0
          simp only [if_true]
          rw [e4]
          exact .ok ⟨rfl, h4, hx.store, hx.cnf⟩

/-- The same choices, except for the choice among the variables of the queue. -/
def SameButPick (os os' : List Orc) : Prop := List.Forall₂ (fun o o' : Orc => ∃ pick, o' = { o with pick := pick }) os os'

theorem SameButPick.rfl : ∀ (os : List Orc), SameButPick os os
  | [] => .nil
  | o :: os => .cons ⟨o.pick, _root_.rfl⟩ (SameButPick.rfl os)

theorem search_sim {cfg : Cfg} {F : Form} : ∀ (os : List Orc) {y : Sol} {x : SolQ}, Head cfg F y → SolRel y x →
    ∃ os', SameButPick os os' ∧ RRel SolRel (search cfg os' y) (QStk.searchQ cfg os x)
  | [], y, x, _, hx => ⟨[], .nil, .ok hx⟩
  | o :: os, y, x, h, hx => by
    have e1 : x.x.s.running = y.s.running := by rw [← hx.rel.same]; rfl
    unfold QStk.searchQ
    rw [e1]
    by_cases hr : y.s.running = true
    · rw [if_pos hr]
      obtain ⟨pick, hs⟩ := searchStep_sim h hr hx o
      cases hq : searchStep cfg { o with pick := pick } y with
      | ok a =>
        rw [hq] at hs
        cases hb : QStk.searchStepQ cfg o x with
        | ok b =>
          rw [hb] at hs
          have hab : SolRel a b := by cases hs; assumption
          obtain ⟨os', h1, h2⟩ := search_sim os (.step h hr hq) hab
          refine ⟨{ o with pick := pick } :: os', .cons ⟨pick, rfl⟩ h1, ?_⟩
          unfold search
          rw [if_pos hr, hq]
          exact h2
        | _ => rw [hb] at hs; cases hs
      | _ =>
        rw [hq] at hs
        refine ⟨{ o with pick := pick } :: os, .cons ⟨pick, rfl⟩ (SameButPick.rfl os), ?_⟩
        unfold search
        rw [if_pos hr, hq]
        revert hs
        generalize QStk.searchStepQ cfg o x = r'
        intro hs
        cases hs
        first | exact .unsat ‹_› | exact .err | exact .panic | exact .fuel
    · rw [if_neg hr]
      refine ⟨o :: os, SameButPick.rfl _, ?_⟩
      unfold search
      rw [if_neg hr]
      exact .ok hx

/-- The answers agree. -/
inductive ARel : Ans → AnsQ → Prop
  | sat {vals : List Int} {y : Sol} {x : SolQ} (h : SolRel y x) : ARel (.sat vals y) (.sat vals x)
  | unsat {db : Cdb} : ARel (.unsat db) (.unsat db)
  | err : ARel .err .err
  | panic : ARel .panic .panic
  | fuel : ARel .fuel .fuel
  | more {y : Sol} {x : SolQ} (h : SolRel y x) : ARel (.more y) (.more x)

theorem finish_sim {low : Nat → Bool} {y : Sol} {x : SolQ} (hx : SolRel y x) : ARel (Splr.finish low y) (QStk.finishQ low x) := by
  have e1 : x.x.s.assign = y.s.assign := by rw [← hx.rel.same]
  have e2 : x.x.s.numVars = y.s.numVars := by rw [← hx.rel.same]
  have e3 : x.x.s.elim = y.s.elim := by rw [← hx.rel.same]
  unfold Splr.finish QStk.finishQ
  rw [hx.store, e1, e2, e3, hx.db]
  cases extendModel y.store y.s.assign with
  | none => exact .panic
  | some m =>
  simp only []
  cases y.db.validate m false with
  | some _ => exact .err
  | none =>
  simp only []
  cases modelVals m y.s.numVars with
  | none => exact .panic
  | some vals =>
  simp only []
  have h1 : QRel { y.s with elim := fun v => if v = 0 then y.s.elim 0 else false }
      { x.x with s := { x.x.s with elim := fun v => if v = 0 then y.s.elim 0 else false } } := by
    obtain ⟨hp, e⟩ := hx.rel.of
    exact hx.rel.other (by rw [e]) rfl hx.rel.dom.tr hx.rel.dom.sv
  obtain ⟨x4, e4, h4⟩ := h1.cancelUntil low 0
  rw [e4]
  exact .sat ⟨rfl, h4, rfl, hx.cnf⟩

/-- The solver with the array queue does what the solver with a set of queued variables does, for some choices among the queued variables. -/
theorem solve_sim {cfg : Cfg} {F : Form} {y : Sol} {x : SolQ} (h : Built F y) (hx : SolRel y x) (p : Pre) (os : List Orc) (low : Nat → Bool) :
    ∃ os', SameButPick os os' ∧ ARel (solve cfg p os' low y) (QStk.solveQ cfg p os low x) := by
  have hp := preprocess_sim (cfg := cfg) (o := p) hx h
  have hh := fun z => Head.start (cfg := cfg) (p := p) (y := z) h
  unfold solve QStk.solveQ
  revert hp hh
  generalize preprocess cfg p y = r
  generalize QStk.preprocessQ cfg p x = r'
  intro hp hh
  cases hp with
  | @ok a b hab =>
    obtain ⟨os', h1, h2⟩ := search_sim os (hh a rfl) hab
    refine ⟨os', h1, ?_⟩
    simp only [Res.bind, ResQ.bind]
    revert h2
    generalize search cfg os' a = q
    generalize QStk.searchQ cfg os b = q'
    intro h2
    cases h2 with
    | @ok c d hcd =>
      have e1 : d.x.s.running = c.s.running := by rw [← hcd.rel.same]; rfl
      simp only []
      rw [e1]
      split
      · exact .more hcd
      · exact finish_sim hcd
    | unsat _ => exact .unsat
    | err => exact .err
    | panic => exact .panic
    | fuel => exact .fuel
  | unsat _ => exact ⟨os, SameButPick.rfl _, .unsat⟩
  | err => exact ⟨os, SameButPick.rfl _, .err⟩
  | panic => exact ⟨os, SameButPick.rfl _, .panic⟩
  | fuel => exact ⟨os, SameButPick.rfl _, .fuel⟩

end Splr
