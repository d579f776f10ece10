import Verif.Lemmas.EndsConf
import Verif.Lemmas.EndsRoot
import Verif.Lemmas.EndsElim
import Verif.Props.C14_C19_Process
/-! Nothing panics and all loops end: the main loop. -/
namespace Splr
open Stk

/-- The watched literals are fit for conflict analysis. -/
def Lv (db : Cdb) (s : Stk) : Prop := ∃ Z : Lit → Prop, Wt (fun _ w => Z w) db s ∧ Nz Z db s

theorem Lv.ofRoot {E : Nat → Lit → Prop} {db : Cdb} {s : Stk} (hi : Inv db s) (hl : s.lim = []) (hw : Wt E db s) (hs : s.saved = []) : Lv db s :=
  ⟨fun w => Root s w.neg, (hw.mono (E' := fun _ _ => True) fun _ _ _ => trivial).weaken fun _ _ _ h2 _ h4 =>
    absurd ⟨h2.1, hi.level_root hl (tr_assigned h2.1)⟩ h4, Nz.nil (fun _ h => h) hs⟩

/-- The state between two iterations of the main loop. -/
structure LOK (F : Form) (nv : Nat) (x : Sol) : Prop where
  sok : SOK F nv x
  few : nv < 65535
  cnf : nv ≤ x.cnf
  lv : Lv x.db x.s

theorem SOK.few {F : Form} {nv : Nat} {x : Sol} (h : SOK F nv x) (hf : nv < 65535) : Few x.s := by unfold Few; rw [h.nvar]; exact hf

theorem Res.Ends.orOom {α : Type} {r : Res α} {oom : Bool} (h : r.Ends) : (r.orOom oom).Ends := by
  cases r with
  | unsat db s => unfold Res.orOom; simp only []; split <;> trivial
  | _ => exact h

theorem reduce_some {db : Cdb} {level : Nat → Nat} {victims : List Nat} (hw : db.WF) : ∃ db', db.reduce level victims = some db' := by
  obtain ⟨d, ed, -⟩ := Cdb.foldl_remove (Cdb.wf_rerank hw level) (List.nodup_dedup (victims.filter (db.rerank level).reducible)) (fun i hi => by
    rw [List.mem_dedup] at hi
    have := (List.mem_filter.1 hi).2
    simp only [Cdb.reducible, Bool.and_eq_true, decide_eq_true_eq, Bool.not_eq_true'] at this
    have hd := this.1.1.2
    intro e
    simp [Cl.dead, e] at hd)
  exact ⟨d, ed⟩

/-! ## stages -/

theorem segmentElim_ends {F : Form} {nv : Nat} {cfg : Cfg} {o : StageOrc} {x : Sol} (h : ROK F nv x.store (x.db, x.s)) (hf : nv < 65535) (hc : nv ≤ x.cnf) :
    (segmentElim cfg o x).Ends := by
  unfold segmentElim
  obtain ⟨recs, g, e⟩ := h.glob
  have hnv : x.s.numVars = nv := h.nvar
  have hfew : Few x.s := by unfold Few; rw [hnv]; exact hf
  refine (prepare_ends g.dom (by rw [hnv]; exact hc)).bind fun y hy => ?_
  refine Res.Ends.bind ?_ fun _ _ => trivial
  cases hen : cfg.enable with
  | false =>
    rw [hen] at hy
    simp only [prepare, Bool.not_false, if_true, Res.ok.injEq] at hy
    subst hy
    exact simplify_ends' ⟨g.rinv, g.dom, hfew⟩
  | true =>
    rw [hen] at hy
    obtain ⟨p1, p2, p3, p4⟩ := prepare_spec g.rinv.wf g.dom h.unl hy
    have hE : EOK F x.s recs y := by
      refine ⟨[], ?_, by rw [p3]; rfl, by rw [p1]; exact h.lim, p4, by rw [p1]; exact id, by rw [p1]; exact id, by rw [p1]⟩
      rw [List.append_nil, p1]
      exact g.step (Tr.flags (r := true) g.rinv h.lim p2)
    exact simplify_ends hE hfew

theorem stageStep_cnf {cfg : Cfg} {o : StageOrc} {low : Nat → Bool} {x y : Sol} (e : stageStep cfg o low x = .ok y) : y.cnf = x.cnf := by
  unfold stageStep at e
  split at e
  · cases e
  obtain ⟨x1, e1, e⟩ := Res.bind_ok e
  obtain ⟨x2, e2, e⟩ := Res.bind_ok e
  obtain ⟨z, e3, e⟩ := Res.bind_ok e
  cases e
  show z.cnf = x.cnf
  split at e3
  · obtain ⟨x3, e4, e5⟩ := Res.bind_ok e3
    simp only [] at e5
    split at e5
    · unfold segmentElim at e5
      obtain ⟨u, e6, e7⟩ := Res.bind_ok e5
      obtain ⟨w, e8, e9⟩ := Res.bind_ok e7
      cases e9; rfl
    · cases e5; rfl
  · cases e3; rfl

theorem stageStep_lv {F : Form} {nv : Nat} {cfg : Cfg} {o : StageOrc} {low : Nat → Bool} {x y : Sol} (h : SOK F nv x) (hw : Lv x.db x.s)
    (e : stageStep cfg o low x = .ok y) : Lv y.db y.s := by
  obtain ⟨Z, hw, -⟩ := hw
  have hy := stageStep_spec (cfg := cfg) (o := o) (low := low) h
  rw [e] at hy
  unfold stageStep at e
  split at e
  · cases e
  obtain ⟨x1, e1, e⟩ := Res.bind_ok e
  obtain ⟨x2, e2, e⟩ := Res.bind_ok e
  obtain ⟨z, e3, e⟩ := Res.bind_ok e
  cases e
  have t1 : Tr true false x.db x.s x.db (x.s.restart low) := Tr.cancelUntil h.pinv.rinv low 0
  have hw1 := hw.mono (E' := fun _ _ => True) fun _ _ _ => trivial
  have k0 : KW (fun _ => True) (x.db, x.s.restart low) := ⟨t1.rinv, t1.dom h.dom, hw1.cancelUntil' h.pinv.inv low 0⟩
  have k1 := kw_clearAsserted k0 (cancelUntil_lim0) e1
  have k2 : KW (fun _ => True) x2 ∧ x2.2.lim = [] := by
    unfold Cdb.reduceRes at e2
    split at e2
    · cases e2
    · rename_i db1 hr
      cases e2
      have t2 := (reduce_tr (r := true) k1.1.rinv k1.2 hr).1
      exact ⟨⟨t2.rinv, t2.dom k1.1.dom, reduce_wt k1.1.rinv.wf k1.1.wt hr⟩, k1.2⟩
  suffices hz : Wt (fun _ _ => True) z.db z.s ∧ z.s.lim = [] from
    Lv.ofRoot (E := fun _ _ => True) hy.pinv.inv hz.2 (hz.1.stkEq rfl rfl rfl rfl rfl) rfl
  split at e3
  · obtain ⟨x3, e4, e5⟩ := Res.bind_ok e3
    have k3 := kw_vivify k2.1 k2.2 e4
    simp only [] at e5
    split at e5
    · unfold segmentElim at e5
      obtain ⟨u, e6, e7⟩ := Res.bind_ok e5
      obtain ⟨w, e8, e9⟩ := Res.bind_ok e7
      cases e9
      have c3 : CE True x3 := ⟨k3.1.rinv.wf, k3.1.rinv.inv, k3.2, k3.1.wt⟩
      have c4 := ce_prepare (x := (x3.1, x3.2)) e6 c3
      have c5 := (ce_simplify (.inl trivial) c4 e8).1
      exact ⟨c5.wt, c5.lim⟩
    · cases e5; exact ⟨k3.1.wt, k3.2⟩
  · cases e3; exact ⟨k2.1.wt, k2.2⟩

theorem stageStep_ends {F : Form} {nv : Nat} {cfg : Cfg} {o : StageOrc} {low : Nat → Bool} {x : Sol} (h : SOK F nv x) (hf : nv < 65535) (hc : nv ≤ x.cnf) :
    (stageStep cfg o low x).Ends := by
  unfold stageStep
  split
  · trivial
  obtain ⟨recs, g, e⟩ := h.glob
  have t1 : Tr true false x.db x.s x.db (x.s.restart low) := Tr.cancelUntil h.pinv.rinv low 0
  have h1 : ROK F nv x.store (x.db, x.s.restart low) := ⟨t1.sp.numVars.trans h.nvar, cancelUntil_lim0, t1.sp.heap h.heap, h.unl, recs, g.step t1, e⟩
  have g1 := g.step t1
  have r0 : RD (x.db, x.s) := ⟨h.pinv.rinv, h.dom, h.few hf⟩
  have r1 : RD (x.db, x.s.restart low) := r0.tr t1
  refine (clearAsserted_ends r1 cancelUntil_lim0).bind fun x1 e1 => ?_
  have q1 := (rg_clearAsserted (r := true) (x := (x.db, x.s.restart low)) g1.rinv cancelUntil_lim0 g1.dom).ok e1
  have h2 := h1.step (y := x1) q1.1 q1.2 (q1.1.unl rfl)
  have r2 : RD x1 := r1.tr q1.1
  obtain ⟨db2, hr⟩ := reduce_some (level := x1.2.level) (victims := o.victims) r2.inv.wf
  unfold Cdb.reduceRes
  rw [hr]
  obtain ⟨t2, u2⟩ := reduce_tr (r := true) r2.inv h2.lim hr
  have h3 : ROK F nv x.store (db2, x1.2) := h2.step t2 h2.lim u2
  have r3 : RD (db2, x1.2) := r2.tr t2
  simp only [Res.bind]
  refine Res.Ends.bind ?_ fun _ _ => trivial
  split
  · refine (vivify_ends r3 h3.lim).bind fun x3 e3 => ?_
    have q3 := (rg_vivify (r := true) (x := (db2, x1.2)) r3.inv h3.lim r3.dom).ok e3
    have h4 := h3.step (y := x3) q3.1 q3.2 (q3.1.unl rfl)
    split
    · exact segmentElim_ends (x := { x with db := x3.1, s := x3.2 }) h4 hf hc
    · trivial
  · trivial

/-! ## the loop -/

theorem SOK.decides {F : Form} {nv : Nat} {x : Sol} (h : SOK F nv x) (hr : x.s.running = true) (o : Orc) : decideStep o x.s ≠ none := by
  unfold decideStep
  split
  · simp
  rename_i hrem
  have hrem : x.s.remains = false := by simpa using hrem
  obtain ⟨recs, g, -⟩ := h.glob
  have hu : x.s.unassigned ≠ 0 := by unfold Stk.running at hr; rw [hrem] at hr; simpa using hr
  rw [Ne, unassigned_zero h.pinv.inv h.dom g.cnt, not_not] at hu
  obtain ⟨v, a1, a2, a3, a4⟩ := hu
  obtain ⟨⟨w, s1⟩, e⟩ := selectVar_live (pick := o.pick) (n := x.s.selectFuel) (s := x.s) (by unfold selectFuel; omega) a3 a4 (h.heap v ⟨a1, a2, a4⟩ a3)
  rw [e]; simp

theorem searchStep_lv {F : Form} {nv : Nat} {cfg : Cfg} {o : Orc} {x y : Sol} (hs : SOK F nv x) (hl : Lv x.db x.s) (e : searchStep cfg o x = .ok y) :
    y.cnf = x.cnf ∧ Lv y.db y.s := by
  obtain ⟨Z, hw, hn⟩ := hl
  unfold searchStep at e
  split at e
  · cases e
  rename_i s hd
  obtain ⟨p1, t1, -⟩ := decideStep_spec (k := true) (r := false) hs.pinv hs.dom hd
  have w1 := decideStep_wt hs.pinv hw hd
  have n1 : Nz Z x.db s := hn.decideStep (fun l => t1.root l) hd
  have hg := propagate_good (q := o.q) p1
  have hpw := propagate_wtB (q := o.q) p1 w1
  split at e
  · rename_i hp; rw [hp] at hg hpw; cases e; exact ⟨rfl, Z, hpw, hg.nz p1.wf n1⟩
  · cases e
  · cases e
  rename_i db s1 l r hp
  rw [hp] at hg hpw
  obtain ⟨st, hco⟩ := hg
  have p2 := (st.all p1).1
  have n2 : Nz Z db s1 := st.nz p1.wf n1
  have t2 : Tr true false x.db x.s db s1 := t1.trans (st.trn p1.rinv)
  split at e
  · cases e
  rename_i h0
  have hpos : 0 < s1.dl := by omega
  split at e
  · cases e
  · cases e
  rename_i db2 s2 hh
  have hdm := t2.dom hs.dom
  have w3 := handle_wt p2 hpos hpw hco hh
  have n3 := n2.handle p2 hdm hpos hco hh
  have t3 := handle_tr p2 hdm hpos hco hh
  have hok : PInv db2 s2 := by
    have := handleConflict_spec (low := o.low) (rr := o.rr) (drift := o.drift) p2 hpos hco
    rw [hh] at this
    exact this.choose_spec.choose_spec.choose_spec.2.2.inv
  have h3 : SOK F nv { x with db := db2, s := s2 } := hs.step (t2.trans t3) hok
  unfold afterConflict at e
  split at e
  · have hcn := stageStep_cnf e
    have hl := stageStep_lv h3 ⟨Z, w3, n3⟩ e
    exact ⟨hcn, hl⟩
  · cases e
    split
    · exact ⟨rfl, Z, w3.cancelUntil' hok.inv o.low2 0, n3.cancelUntil hok.inv o.low2 0⟩
    · exact ⟨rfl, Z, w3, n3⟩

theorem searchStep_ends {F : Form} {nv : Nat} {cfg : Cfg} {o : Orc} {x : Sol} (h : LOK F nv x) (hr : x.s.running = true) :
    (searchStep cfg o x).Ends := by
  obtain ⟨hs, hf, hc, Z, hw, hn⟩ := h
  unfold searchStep
  cases hd : decideStep o x.s with
  | none => exact absurd hd (hs.decides hr o)
  | some s =>
  obtain ⟨p1, t1, -⟩ := decideStep_spec (k := true) (r := false) hs.pinv hs.dom hd
  have w1 := decideStep_wt hs.pinv hw hd
  have n1 : Nz Z x.db s := hn.decideStep (fun l => t1.root l) hd
  have hfew : Few s := by unfold Few; rw [t1.sp.numVars, hs.nvar]; exact hf
  have he := propagate_ends (q := o.q) p1 (t1.dom hs.dom) hfew
  have hg := propagate_good (q := o.q) p1
  have htop := propagate_top (q := o.q) p1 w1 n1
  simp only []
  cases hp : propagate o.q x.db s with
  | panic => rw [hp] at he; exact he.elim
  | fuel => rw [hp] at he; exact he.elim
  | ok db s1 => trivial
  | conflict db s1 l r =>
    rw [hp] at hg htop
    obtain ⟨st, hco⟩ := hg
    have p2 := (st.all p1).1
    have t2 : Tr true false x.db x.s db s1 := t1.trans (st.trn p1.rinv)
    simp only []
    split
    · trivial
    rename_i h0
    have hpos : 0 < s1.dl := by omega
    cases hh : handleConflict db s1 o.low o.rr o.drift l r with
    | panic => exact absurd hh (handle_ends p2 hpos hco htop)
    | unsat db2 s2 => trivial
    | ok db2 s2 =>
      have t3 := handle_tr p2 (t2.dom hs.dom) hpos hco hh
      have hok : PInv db2 s2 := by
        have := handleConflict_spec (low := o.low) (rr := o.rr) (drift := o.drift) p2 hpos hco
        rw [hh] at this
        exact this.choose_spec.choose_spec.choose_spec.2.2.inv
      have h3 : SOK F nv { x with db := db2, s := s2 } := hs.step (t2.trans t3) hok
      show (afterConflict cfg o { x with db := db2, s := s2 }).Ends
      unfold afterConflict
      split
      · exact stageStep_ends h3 hf hc
      · trivial

theorem LOK.step {F : Form} {nv : Nat} {cfg : Cfg} {o : Orc} {x y : Sol} (h : LOK F nv x) (e : searchStep cfg o x = .ok y) : LOK F nv y := by
  have hspec := searchStep_spec (cfg := cfg) (o := o) h.sok
  rw [e] at hspec
  obtain ⟨a, b⟩ := searchStep_lv h.sok h.lv e
  exact ⟨hspec, h.few, by rw [a]; exact h.cnf, b⟩

theorem search_ends {F : Form} {nv : Nat} {cfg : Cfg} : ∀ {os : List Orc} {x : Sol}, LOK F nv x → (search cfg os x).Ends
  | [], _, _ => trivial
  | o :: os, x, h => by
    unfold search
    split
    · rename_i hr
      exact (searchStep_ends (cfg := cfg) (o := o) h hr).bind fun y e => search_ends (h.step e)
    · trivial

/-! ## preprocessing -/

theorem pureLoop_ends {cnf : Nat} {e : El} : ∀ {n vi : Nat} {x : DS}, vi + n ≤ cnf + 2 → (pureLoop cnf e n vi x).Ends
  | 0, _, _, _ => trivial
  | n + 1, vi, x, h => by
    unfold pureLoop
    split
    · exact pureLoop_ends (by omega)
    rw [if_neg (by omega)]
    split
    · exact pureLoop_ends (by omega)
    split
    · exact assignRootRes_ends.bind fun _ _ => pureLoop_ends (by omega)
    split
    · exact assignRootRes_ends.bind fun _ _ => pureLoop_ends (by omega)
    · exact pureLoop_ends (by omega)

theorem preprocess_ends {F : Form} {cfg : Cfg} {o : Pre} {x : Sol} (hb : BOK F x) (hf : Few x.s) (hc : x.s.numVars ≤ x.cnf) :
    (preprocess cfg o x).Ends := by
  unfold preprocess
  split
  · trivial
  have r0 : RD (x.db, x.s) := ⟨hb.rinv, hb.dom, hf⟩
  refine (vivify_ends r0 hb.lim).bind fun x1 e1 => ?_
  obtain ⟨t1, l1⟩ := (rg_vivify (r := true) (x := (x.db, x.s)) hb.rinv hb.lim hb.dom).ok e1
  simp only [id] at t1
  have r1 : RD x1 := r0.tr t1
  refine Res.Ends.bind (Res.Ends.orOom ((propagateRes_ends r1).bind fun z _ => by split <;> trivial)) fun x2 e2 => ?_
  have hoom : ∀ {α : Type} {r : Res α} {b : Bool} {a : α}, r.orOom b = .ok a → r = .ok a := by
    intro α r b a h
    cases r with
    | unsat db s => unfold Res.orOom at h; simp only [] at h; split at h <;> simp at h
    | _ => exact h
  obtain ⟨u, e6, e7⟩ := Res.bind_ok (hoom e2)
  split at e7
  · cases e7
  cases e7
  obtain ⟨t2, l2⟩ := (rg_propagate (k := true) (r := true) r1.inv l1).ok e6
  simp only [id] at t2
  have r2 : RD x2 := r1.tr t2
  have hnv : x2.2.numVars = x.s.numVars := t2.sp.numVars.trans t1.sp.numVars
  refine (prepare_ends r2.dom (by rw [hnv]; exact hc)).bind fun y e3 => ?_
  have g2 := (hb.glob.step t1).step t2
  have c2 := (hb.cov.step t1).step t2
  have v2 := t2.sv rfl (t1.sv rfl hb.saved)
  have u2 : Unl x2.1 := t2.unl rfl (t1.unl rfl hb.unl)
  cases hen : cfg.enable with
  | true =>
    rw [hen] at e3
    obtain ⟨p1, p2, p3, p4⟩ := prepare_spec g2.rinv.wf g2.dom u2 e3
    have hP : POK F x.s.numVars y.2 y.1 := by
      refine ⟨?_, ?_, by rw [p1]; exact l2, by rw [p1]; exact v2, p4, by rw [p1]; exact hnv⟩
      · rw [p1]; exact g2.step (Tr.flags (r := true) g2.rinv l2 p2)
      · intro c hc
        rw [p2.cert] at hc
        exact covered_same (fun i x => by rw [p2.lits]) (by rw [p1]; exact fun _ h => h) (c2 c hc)
    refine (pureLoop_ends (by rw [hP.nv]; omega)).bind fun x3 e4 => ?_
    have h4 := pureLoop_spec (cnf := x.cnf) hP (n := y.1.2.numVars) (vi := 1) (Nat.le_refl _) (by rw [hP.nv]; omega)
    rw [e4] at h4
    have hE : EOK F x3.2 [] (x3, y.2) := ⟨[], by simpa using h4.glob, p3, h4.lim, h4.occ, id, id, rfl⟩
    exact Res.Ends.bind (simplify_ends hE (by unfold Few at *; rw [h4.nv]; exact hf)).orOom fun _ _ => trivial
  | false =>
    rw [hen] at e3
    simp only [prepare, Bool.not_false, if_true, Res.ok.injEq] at e3
    subst e3
    refine (pureLoop_ends (by show 1 + x2.2.numVars ≤ _; rw [hnv]; omega)).bind fun x3 e4 => ?_
    have hA : AOK F x.s.numVars x2 := ⟨g2, l2, v2, u2, hnv⟩
    obtain ⟨F', hF, h4⟩ := pureLoop_any hA (Nat.le_refl _) (by show 1 + x2.2.numVars ≤ _; rw [hnv]; omega) e4
    exact Res.Ends.bind (Res.Ends.orOom (simplify_ends' ⟨h4.glob.rinv, h4.glob.dom, by unfold Few at *; rw [h4.nv]; exact hf⟩)) fun _ _ => trivial

theorem preprocess_saved {F : Form} {cfg : Cfg} {o : Pre} {x y' : Sol} (hb : BOK F x) (e : preprocess cfg o x = .ok y') : y'.s.saved = [] := by
  unfold preprocess at e
  split at e
  · cases e
  obtain ⟨x1, e1, e⟩ := Res.bind_ok e
  obtain ⟨x2, e2, e⟩ := Res.bind_ok e
  obtain ⟨y, e3, e⟩ := Res.bind_ok e
  obtain ⟨x3, e4, e⟩ := Res.bind_ok e
  obtain ⟨w, e5, e⟩ := Res.bind_ok e
  cases e
  show w.1.2.saved = []
  obtain ⟨t1, l1⟩ := (rg_vivify (r := true) (x := (x.db, x.s)) hb.rinv hb.lim hb.dom).ok e1
  simp only [id] at t1
  have hoom : ∀ {α : Type} {r : Res α} {b : Bool} {a : α}, r.orOom b = .ok a → r = .ok a := by
    intro α r b a h
    cases r with
    | unsat db s => unfold Res.orOom at h; simp only [] at h; split at h <;> simp at h
    | _ => exact h
  obtain ⟨u, e6, e7⟩ := Res.bind_ok (hoom e2)
  split at e7
  · cases e7
  cases e7
  obtain ⟨t2, l2⟩ := (rg_propagate (k := true) (r := true) t1.rinv l1).ok e6
  simp only [id] at t2
  have hnv : x2.2.numVars = x.s.numVars := t2.sp.numVars.trans t1.sp.numVars
  have g2 := (hb.glob.step t1).step t2
  have c2 := (hb.cov.step t1).step t2
  have v2 := t2.sv rfl (t1.sv rfl hb.saved)
  have u2 : Unl x2.1 := t2.unl rfl (t1.unl rfl hb.unl)
  cases hen : cfg.enable with
  | true =>
    rw [hen] at e3
    obtain ⟨p1, p2, p3, p4⟩ := prepare_spec g2.rinv.wf g2.dom u2 e3
    have hP : POK F x.s.numVars y.2 y.1 := by
      refine ⟨?_, ?_, by rw [p1]; exact l2, by rw [p1]; exact v2, p4, by rw [p1]; exact hnv⟩
      · rw [p1]; exact g2.step (Tr.flags (r := true) g2.rinv l2 p2)
      · intro c hc
        rw [p2.cert] at hc
        exact covered_same (fun i x => by rw [p2.lits]) (by rw [p1]; exact fun _ h => h) (c2 c hc)
    have h4 := pureLoop_spec (cnf := x.cnf) hP (n := y.1.2.numVars) (vi := 1) (Nat.le_refl _) (by rw [hP.nv]; omega)
    rw [e4] at h4
    have hE : EOK F x3.2 [] (x3, y.2) := ⟨[], by simpa using h4.glob, p3, h4.lim, h4.occ, id, id, rfl⟩
    have hS := simplify_spec (evo := cfg.evo) (cmds := o.cmds) (oom := o.oom2) hE
    have e5 := hoom e5
    rw [hen] at e5
    rw [e5] at hS
    obtain ⟨recs, g', hb, hl, hu, -, hsv, hnv⟩ := hS
    exact hsv h4.saved
  | false =>
    rw [hen] at e3
    simp only [prepare, Bool.not_false, if_true, Res.ok.injEq] at e3
    subst e3
    have hA : AOK F x.s.numVars x2 := ⟨g2, l2, v2, u2, hnv⟩
    obtain ⟨F', hF, h4⟩ := pureLoop_any hA (Nat.le_refl _) (by show 1 + x2.2.numVars ≤ _; rw [hnv]; omega) e4
    have e5 := hoom e5
    rw [hen] at e5
    simp only [simplify, Bool.false_eq_true, if_false] at e5
    obtain ⟨v, e8, e9⟩ := Res.bind_ok e5
    obtain ⟨t5, -⟩ := (rg_propagate (k := true) (r := true) h4.glob.rinv h4.lim).ok e8
    split at e9
    · cases e9
    cases e9
    exact t5.sv rfl h4.saved

theorem preprocess_lv {cfg : Cfg} {F : Form} {o : Pre} {x y : Sol} (h : Built F x) (e : preprocess cfg o x = .ok y) : Lv y.db y.s ∧ y.cnf = x.cnf := by
  have hb := h.bok.1
  obtain ⟨F', -, hs⟩ := preprocess_any hb e
  have he := e
  unfold preprocess at e
  split at e
  · cases e
  obtain ⟨x1, e1, e⟩ := Res.bind_ok e
  obtain ⟨x2, e2, e⟩ := Res.bind_ok e
  obtain ⟨z, e3, e⟩ := Res.bind_ok e
  obtain ⟨x3, e4, e⟩ := Res.bind_ok e
  obtain ⟨w, e5, e⟩ := Res.bind_ok e
  cases e
  refine ⟨?_, rfl⟩
  have k1 := kw_vivify (x := (x.db, x.s)) ⟨hb.rinv, hb.dom, h.bw.wt hb.lim⟩ hb.lim e1
  have hoom : ∀ {α : Type} {r : Res α} {b : Bool} {a : α}, r.orOom b = .ok a → r = .ok a := by
    intro α r b a h
    cases r with
    | unsat db s => unfold Res.orOom at h; simp only [] at h; split at h <;> simp at h
    | _ => exact h
  obtain ⟨u, e6, e7⟩ := Res.bind_ok (hoom e2)
  split at e7
  · cases e7
  cases e7
  have k2 := kw_propagate k1.1 k1.2 e6
  have c2 : CE False x2 := ⟨k2.1.rinv.wf, k2.1.rinv.inv, k2.2, k2.1.wt⟩
  have c4 : CE False x3 := ce_pureLoop (ce_prepare e3 c2) e4
  have c5 := (ce_simplify (B := True) (y := (x3, z.2)) (.inl trivial) ⟨c4.wf, c4.inv, c4.lim, c4.wt.mono fun _ _ _ => trivial⟩ (hoom e5)).1
  refine Lv.ofRoot (E := fun _ _ => True) hs.pinv.inv c5.lim (c5.wt.stkEq rfl rfl rfl rfl rfl) ?_
  exact preprocess_saved hb he

theorem preprocess_lok {cfg : Cfg} {F : Form} {o : Pre} {x y : Sol} (h : Built F x) (hf : Few x.s) (hc : x.s.numVars ≤ x.cnf) (e : preprocess cfg o x = .ok y) :
    ∃ F', (∀ c ∈ F, c ∈ F') ∧ LOK F' x.s.numVars y := by
  obtain ⟨F', hF, hs⟩ := preprocess_any h.bok.1 e
  obtain ⟨a, b⟩ := preprocess_lv h e
  exact ⟨F', hF, hs, hf, by rw [b]; exact hc, a⟩

/-- The whole call. -/
theorem solve_ends {cfg : Cfg} {F : Form} {p : Pre} {os : List Orc} {low : Nat → Bool} {x : Sol} (h : Built F x) (hf : Few x.s) (hc : x.s.numVars ≤ x.cnf) :
    solve cfg p os low x ≠ .panic ∧ solve cfg p os low x ≠ .fuel := by
  have he : ((preprocess cfg p x).bind (search cfg os)).Ends := (preprocess_ends h.bok.1 hf hc).bind fun y e => by
    obtain ⟨F', -, hy⟩ := preprocess_lok h hf hc e
    exact search_ends hy
  unfold solve
  cases hr : (preprocess cfg p x).bind (search cfg os) with
  | panic => rw [hr] at he; exact he.elim
  | fuel => rw [hr] at he; exact he.elim
  | unsat db s => exact ⟨by simp, by simp⟩
  | err => exact ⟨by simp, by simp⟩
  | ok y =>
    simp only []
    split
    · exact ⟨by simp, by simp⟩
    rename_i hrun
    obtain ⟨z, e1, e2⟩ := Res.bind_ok hr
    obtain ⟨F', -, hz⟩ := preprocess_any h.bok.1 e1
    have hs := search_spec (cfg := cfg) (os := os) hz
    rw [e2] at hs
    rcases finish_spec (low := low) hs (by simpa using hrun) with e | ⟨vals, z, e, -⟩ <;> rw [e] <;> exact ⟨by simp, by simp⟩

theorem Head.lv {cfg : Cfg} {F : Form} {x : Sol} (h : Head cfg F x) : Lv x.db x.s := by
  induction h with
  | start h e => exact (preprocess_lv h e).1
  | step h hr e ih =>
    obtain ⟨F', -, hs⟩ := h.sok
    exact (searchStep_lv hs ih e).2

theorem Conflict.top {cfg : Cfg} {F : Form} {db : Cdb} {s : Stk} {l : Lit} {r : Reason} (h : Conflict cfg F db s l r) : Top db s l r := by
  obtain ⟨⟨hh, hr, ed⟩, e⟩ := h
  rename_i s0 q x o
  obtain ⟨F', -, hs⟩ := hh.sok
  obtain ⟨Z, hw, hn⟩ := hh.lv
  obtain ⟨p1, t1, -⟩ := decideStep_spec (k := true) (r := false) hs.pinv hs.dom ed
  have := propagate_top (q := q) p1 (decideStep_wt hs.pinv hw ed) (hn.decideStep (fun l => t1.root l) ed)
  rw [e] at this
  exact this

end Splr
