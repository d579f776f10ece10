import Verif.Lemmas.GoneRoot
/-! Cleared variables: elimination, conflicts and the main loop. -/
namespace Splr
open Stk

/-! ## elimination -/

theorem ac_runCmd {F : Form} {s0 : Stk} {recs : List Rec} {evo : Nat} {y z : DS × El} {c : ECmd} (h : EOK F s0 recs y) (ha : AC y.1.1 y.1.2)
    (e : runCmd evo y c = .ok z) : AC z.1.1 z.1.2 := by
  have hg := (runCmd_grow h e).1
  exact ha.step (fun _ => InCls.supp hg.sup) hg.lng.gone

theorem ac_runCmds {F : Form} {s0 : Stk} {recs : List Rec} {evo : Nat} : ∀ {cs : List ECmd} {y z : DS × El}, EOK F s0 recs y → AC y.1.1 y.1.2 →
    runCmds evo cs y = .ok z → AC z.1.1 z.1.2
  | [], y, z, _, ha, e => by cases e; exact ha
  | c :: cs, y, z, h, ha, e => by
    unfold runCmds at e
    obtain ⟨a, e1, e2⟩ := Res.bind_ok e
    have := runCmd_spec (evo := evo) h c
    rw [e1] at this
    exact ac_runCmds this (ac_runCmd h ha e1) e2

theorem AC.lits {db db' : Cdb} {s : Stk} (h : AC db s) (hl : ∀ i, (db'.clause i).lits = (db.clause i).lits) : AC db' s :=
  h.step (fun _ => InCls.lits hl) fun _ h => h

theorem ac_simplify {F : Form} {s0 : Stk} {recs : List Rec} {enable oom : Bool} {evo : Nat} {cmds : List ECmd} {y z : DS × El}
    (h : enable = true → EOK F s0 recs y) (hi : RInv y.1.1 y.1.2) (ha : AC y.1.1 y.1.2) (e : simplify enable evo cmds oom y = .ok z) : AC z.1.1 z.1.2 := by
  unfold simplify at e
  split at e
  · rename_i hen
    obtain ⟨u, e2, e3⟩ := Res.bind_ok e
    split at e3
    · cases e3
    · cases e3
      exact (ac_runCmds (h hen) ha e2).lits fun _ => rfl
  · obtain ⟨u, e2, e3⟩ := Res.bind_ok e
    split at e3
    · cases e3
    · cases e3
      exact ac_propagate hi ha e2

theorem gone_pureLoop {cnf : Nat} {e : El} : ∀ {n vi : Nat} {x y : DS}, pureLoop cnf e n vi x = .ok y → (∀ i, (y.1.clause i).lits = (x.1.clause i).lits) ∧ ∀ v, Gone y.2 v → Gone x.2 v
  | 0, _, x, y, e1 => by unfold pureLoop at e1; cases e1; exact ⟨fun _ => rfl, fun _ h => h⟩
  | n + 1, vi, x, y, e1 => by
    unfold pureLoop at e1
    have key : ∀ {l : Cls} {m : Lit}, (x.2.assignRootRes (x.1.log (.add l)) m).bind (pureLoop cnf e n (vi + 1)) = .ok y →
        (∀ i, (y.1.clause i).lits = (x.1.clause i).lits) ∧ ∀ v, Gone y.2 v → Gone x.2 v := by
      intro l m e2
      obtain ⟨a, e3, e4⟩ := Res.bind_ok e2
      obtain ⟨h1, h2⟩ := gone_pureLoop e4
      refine ⟨fun i => ?_, fun v hv => gone_assignRootRes e3 (h2 v hv)⟩
      rw [h1, assignRootRes_db e3]; rfl
    split at e1
    · exact gone_pureLoop e1
    split at e1
    · simp at e1
    split at e1
    · exact gone_pureLoop e1
    split at e1
    · exact key e1
    split at e1
    · exact key e1
    · exact gone_pureLoop e1

theorem Res.of_orOom {α : Type} {r : Res α} {b : Bool} {a : α} (h : r.orOom b = .ok a) : r = .ok a := by
  cases r with
  | unsat db s => unfold Res.orOom at h; simp only [] at h; split at h <;> simp at h
  | _ => exact h

theorem Built.ac {F : Form} {x : Sol} (h : Built F x) : AC x.db x.s := by
  intro v _ ⟨h1, h2⟩
  obtain ⟨b, hb⟩ := Option.ne_none_iff_exists'.1 h1
  exact h2 (List.mem_map.2 ⟨⟨v, b⟩, h.bw.on ⟨v, b⟩ hb, rfl⟩)

theorem Built.ka {F : Form} {x : Sol} (h : Built F x) : KA (x.db, x.s) := ⟨h.bok.1.rinv, h.bok.1.dom, h.ac⟩

/-- The states in preprocessing before the eliminator runs. -/
structure PreSt (cfg : Cfg) (F : Form) (o : Pre) (x : Sol) (x3 : DS) (e : El) (y : Sol) : Prop where
  rinv : RInv x3.1 x3.2
  ac : AC x3.1 x3.2
  eok : cfg.enable = true → EOK F x3.2 [] (x3, e)
  eq : ∃ w, simplify cfg.enable cfg.evo o.cmds o.oom2 (x3, e) = .ok w ∧ y = { x with db := w.1.1, s := w.1.2.rebuildOrder, store := x.store ++ w.2.lits }

theorem preprocess_st {cfg : Cfg} {F : Form} {o : Pre} {x y : Sol} (h : Built F x) (e : preprocess cfg o x = .ok y) : ∃ x3 el, PreSt cfg F o x x3 el y := by
  have hb := h.bok.1
  unfold preprocess at e
  split at e
  · cases e
  obtain ⟨x1, e1, e⟩ := Res.bind_ok e
  obtain ⟨x2, e2, e⟩ := Res.bind_ok e
  obtain ⟨z, e3, e⟩ := Res.bind_ok e
  obtain ⟨x3, e4, e⟩ := Res.bind_ok e
  obtain ⟨w, e5, e⟩ := Res.bind_ok e
  cases e
  obtain ⟨u, e6, e7⟩ := Res.bind_ok (Res.of_orOom e2)
  split at e7
  · cases e7
  cases e7
  have e5 := Res.of_orOom e5
  have k1 := kw_vivify (x := (x.db, x.s)) ⟨hb.rinv, hb.dom, h.bw.wt hb.lim⟩ hb.lim e1
  have k2 := kw_propagate k1.1 k1.2 e6
  have c2 : CE False x2 := ⟨k2.1.rinv.wf, k2.1.rinv.inv, k2.2, k2.1.wt⟩
  have c4 : CE False x3 := ce_pureLoop (ce_prepare e3 c2) e4
  have a1 := ka_vivify (x := (x.db, x.s)) h.ka hb.lim e1
  have a2 := (ka_propagate a1.1 a1.2 e6).1.ac
  have a3 : AC z.1.1 z.1.2 := by
    by_cases hen : cfg.enable = true
    · rw [hen] at e3
      have t1 := ((rg_vivify (r := true) (x := (x.db, x.s)) hb.rinv hb.lim hb.dom).ok e1).1
      have t2 := ((rg_propagate (k := true) (r := true) k1.1.rinv k1.2).ok e6).1
      obtain ⟨p1, p2, -, -⟩ := prepare_spec k2.1.rinv.wf k2.1.dom (t2.unl rfl (t1.unl rfl hb.unl)) e3
      rw [p1]; exact a2.lits p2.lits
    · have hen : cfg.enable = false := by simpa using hen
      rw [hen] at e3
      simp only [prepare, Bool.not_false, if_true] at e3
      cases e3; exact a2
  obtain ⟨g1, g2⟩ := gone_pureLoop e4
  refine ⟨x3, z.2, c4.rinv, a3.step (fun _ => InCls.lits g1) g2, fun hen => ?_, w, e5, rfl⟩
  rw [hen] at e3
  obtain ⟨t1, l1⟩ := (rg_vivify (r := true) (x := (x.db, x.s)) hb.rinv hb.lim hb.dom).ok e1
  obtain ⟨t2, l2⟩ := (rg_propagate (k := true) (r := true) k1.1.rinv k1.2).ok e6
  simp only [id] at t1 t2
  have g2 := (hb.glob.step t1).step t2
  have cv2 := (hb.cov.step t1).step t2
  obtain ⟨p1, p2, p3, p4⟩ := prepare_spec k2.1.rinv.wf k2.1.dom (t2.unl rfl (t1.unl rfl hb.unl)) e3
  have hP : POK F x.s.numVars z.2 z.1 := by
    refine ⟨?_, ?_, by rw [p1]; exact l2, by rw [p1]; exact t2.sv rfl (t1.sv rfl hb.saved), p4, by rw [p1]; exact t2.sp.numVars.trans t1.sp.numVars⟩
    · rw [p1]; exact g2.step (Tr.flags (r := true) g2.rinv l2 p2)
    · intro c hc
      rw [p2.cert] at hc
      exact covered_same (fun i x => by rw [p2.lits]) (by rw [p1]; exact fun _ h => h) (cv2 c hc)
  have h4 := pureLoop_spec (cnf := x.cnf) hP (n := z.1.2.numVars) (vi := 1) (Nat.le_refl _) (by rw [hP.nv]; omega)
  rw [e4] at h4
  exact ⟨[], by simpa using h4.glob, p3, h4.lim, h4.occ, id, id, rfl⟩

theorem preprocess_ac {cfg : Cfg} {F : Form} {o : Pre} {x y : Sol} (h : Built F x) (e : preprocess cfg o x = .ok y) : AC y.db y.s := by
  obtain ⟨x3, el, hp⟩ := preprocess_st h e
  obtain ⟨w, e1, rfl⟩ := hp.eq
  exact (ac_simplify hp.eok hp.rinv hp.ac e1).fields rfl rfl

/-! ## conflicts -/

theorem learnClause_ac {db : Cdb} {s : Stk} {low : Nat → Bool} {drift : Bool} {v : Cls} {lv : Nat} (hv : LearntOK db s v lv) (ha : AC db s) {db' : Cdb} {s' : Stk}
    (e : learnClause db s low drift v lv = .ok db' s') : AC db' s' := by
  have key : ∀ {s1 s2 : Stk} {db1 : Cdb} {level : Nat → Nat} {rf : RefClause}, (∀ w, Gone s1 w → Gone s w) → (∀ w, Gone s2 w → Gone s1 w) →
      db.newClause level v true = some (db1, rf) → AC db1 s2 := by
    intro s1 s2 db1 level rf h1 h2 en w hw hg
    have hg := h1 w (h2 w hg)
    obtain ⟨i, y, hy, rfl⟩ := hw
    rcases newClause_shr en i y hy with hm | hm
    · exact ha _ (hv.held y hm) hg
    · exact ha _ ⟨i, y, hm, rfl⟩ hg
  have push : ∀ {s1 : Stk} {l : Lit} {r : Reason} {k : Nat} (w : Nat), Gone (s1.assignImpl l r k) w → Gone s1 w := by
    intro s1 l r k w
    exact gone_push (assignImpl_fields s1 l r k).1 (assignImpl_fields s1 l r k).2.2.2.1
  obtain ⟨l0, rest, rfl, -⟩ := hv.asserting
  cases rest with
  | nil => simp [learnClause] at e
  | cons l1 tl =>
  unfold learnClause at e
  simp only [] at e
  by_cases hdr : (drift && decide (0 < lv) && decide (2 < (l0 :: l1 :: tl).length)) = true
  · rw [hdr] at e
    simp only [if_true] at e
    have h1 : ∀ w, Gone (s.cancelUntil low (lv - 1)).clearSaved w → Gone s w := fun w hw => gone_cancelUntil (low := low) (lv := lv - 1) hw
    split at e
    · simp at e
    · rename_i en; cases e; exact key h1 (fun _ h => h) en
    · rename_i en; cases e; exact key h1 (fun _ h => h) en
    · simp at e
  · rw [Bool.not_eq_true] at hdr
    rw [hdr] at e
    simp only [Bool.false_eq_true, if_false] at e
    split at e
    · simp at e
    · rename_i en; cases e; exact key (fun w => gone_cancelUntil) push en
    · rename_i en; cases e; exact key (fun w => gone_cancelUntil) push en
    · simp at e

theorem learnUnit_ac {db : Cdb} {s : Stk} {low : Nat → Bool} {l0 : Lit} (ha : AC db s) {db' : Cdb} {s' : Stk} (e : learnUnit db s low l0 = .ok db' s') : AC db' s' := by
  unfold learnUnit at e
  split at e
  · simp at e
  split at e
  · simp at e
  split at e
  · rename_i s1 heq
    cases e
    refine (ha.lits (db' := db.log (.add [l0])) fun _ => rfl).step (fun _ h => h) fun v hv => gone_assignRoot (low := low) (l := l0) ?_
    rw [heq]; exact hv
  · simp at e

theorem handle_ac {db : Cdb} {s : Stk} (h : PInv db s) (hd : 0 < s.dl) (ha : AC db s) {low : Nat → Bool} {rr : Option Nat}
    {drift : Bool} {l : Lit} {r : Reason} (hc : ConfOK db s l r) {db' : Cdb} {s' : Stk} (e : handleConflict db s low rr drift l r = .ok db' s') : AC db' s' := by
  have ha1 : AC (db.rerankOne s.level rr) s := ha.lits fun i => (rerankOne_lits db s.level rr i).1
  unfold handleConflict at e
  split at e
  · simp at e
  split at e
  · simp at e
  · simp at e
  · exact learnUnit_ac ha1 e
  · rename_i v lv seen hn0 hn1 ea
    have hl := (conflictAnalyze_spec h.wf h.inv hd hc ea).1
    exact learnClause_ac (hl.congr fun i => (rerankOne_lits db s.level rr i).1) ha1 e

/-! ## the main loop -/

theorem decideStep_ac {o : Orc} {db : Cdb} {s s' : Stk} (ha : AC db s) (e : decideStep o s = some s') : AC db s' := by
  unfold decideStep at e
  split at e
  · cases e; exact ha
  split at e
  · simp at e
  · rename_i v s1 hs
    cases e
    obtain ⟨f1, f2, f3, f4, f5⟩ := selectVar_fields hs
    exact (ha.fields f1 f3).step (fun _ h => h) fun w hw => gone_push (l := ⟨v, o.phase v⟩) rfl rfl hw

theorem foldRemove_shr : ∀ {vs : List Nat} {db db' : Cdb}, vs.foldlM Cdb.removeClause db = some db' → Shr db db'
  | [], db, db', e => by simp at e; subst e; exact .refl _
  | v :: vs, db, db', e => by
    simp only [List.foldlM_cons] at e
    obtain ⟨d, e1, e2⟩ := Option.bind_eq_some_iff.1 e
    exact Shr.trans (fun i l hl => removeClause_lits e1 i l hl) (foldRemove_shr e2)

theorem reduce_shr {db db' : Cdb} {level : Nat → Nat} {victims : List Nat} (e : db.reduce level victims = some db') : Shr db db' := by
  intro i l hl
  have := foldRemove_shr e i l hl
  rw [(rerank_same db level i).1] at this
  exact this

theorem reduceRes_ac {x y : DS} {victims : List Nat} (ha : AC x.1 x.2) (e : x.1.reduceRes x.2 victims = .ok y) : AC y.1 y.2 := by
  unfold Cdb.reduceRes at e
  split at e
  · cases e
  · rename_i db1 hr
    cases e
    exact ha.step (fun _ => InCls.shr (reduce_shr hr)) fun _ h => h

/-- The state in a stage change before the eliminator runs (in the last component: a segment begins). -/
structure StageSt (cfg : Cfg) (F : Form) (nv : Nat) (o : StageOrc) (x : Sol) (x3 : DS) (y : Sol) : Prop where
  rok : ROK F nv x.store x3
  ac : AC x3.1 x3.2
  seg : o.cycle = true → o.segment = true → ∃ z, segmentElim cfg o { x with db := x3.1, s := x3.2 } = .ok z ∧ y = { z with s := z.s.clearSaved }
  not : ¬ (o.cycle = true ∧ o.segment = true) → y = { x with db := x3.1, s := x3.2.clearSaved }

theorem stageStep_st {F : Form} {nv : Nat} {cfg : Cfg} {o : StageOrc} {low : Nat → Bool} {x y : Sol} (h : SOK F nv x) (ha : AC x.db x.s)
    (e : stageStep cfg o low x = .ok y) : ∃ x3, StageSt cfg F nv o x x3 y := by
  unfold stageStep at e
  split at e
  · cases e
  obtain ⟨x1, e1, e⟩ := Res.bind_ok e
  obtain ⟨x2, e2, e⟩ := Res.bind_ok e
  obtain ⟨z, e3, e⟩ := Res.bind_ok e
  cases e
  obtain ⟨recs, g, e'⟩ := h.glob
  have t1 : Tr true false x.db x.s x.db (x.s.restart low) := Tr.cancelUntil h.pinv.rinv low 0
  have h1 : ROK F nv x.store (x.db, x.s.restart low) := ⟨t1.sp.numVars.trans h.nvar, cancelUntil_lim0, t1.sp.heap h.heap, h.unl, recs, g.step t1, e'⟩
  have k0 : KA (x.db, x.s.restart low) := ⟨t1.rinv, t1.dom h.dom, ha.step (fun _ h => h) fun _ => gone_cancelUntil⟩
  obtain ⟨k1, k2, -⟩ := ka_clearAsserted k0 cancelUntil_lim0 e1
  have q1 := (rg_clearAsserted (r := true) (x := (x.db, x.s.restart low)) k0.rinv cancelUntil_lim0 k0.dom).ok e1
  have h2 := h1.step (y := x1) q1.1 q1.2 (q1.1.unl rfl)
  have k3 : KA x2 ∧ x2.2.lim = [] ∧ ROK F nv x.store x2 := by
    have hac := reduceRes_ac k1.ac e2
    unfold Cdb.reduceRes at e2
    split at e2
    · cases e2
    · rename_i db1 hr
      cases e2
      obtain ⟨t2, u2⟩ := reduce_tr (r := true) k1.rinv k2 hr
      exact ⟨⟨t2.rinv, t2.dom k1.dom, hac⟩, k2, h2.step t2 h2.lim u2⟩
  obtain ⟨k3, l3, h3⟩ := k3
  split at e3
  · rename_i hcy
    obtain ⟨x3, e4, e5⟩ := Res.bind_ok e3
    have k4 := ka_vivify k3 l3 e4
    have q3 := (rg_vivify (r := true) (x := x2) k3.rinv l3 k3.dom).ok e4
    have h4 := h3.step (y := x3) q3.1 q3.2 (q3.1.unl rfl)
    simp only [] at e5
    split at e5
    · rename_i hsg
      exact ⟨x3, h4, k4.1.ac, fun _ _ => ⟨z, e5, rfl⟩, fun hn => absurd ⟨hcy, hsg⟩ hn⟩
    · rename_i hsg
      cases e5
      exact ⟨x3, h4, k4.1.ac, fun _ h => absurd h hsg, fun _ => rfl⟩
  · rename_i hcy
    cases e3
    exact ⟨x2, h3, k3.ac, fun h => absurd h hcy, fun _ => rfl⟩

/-- The states in the elimination at the start of a segment. -/
theorem segmentElim_st {F : Form} {nv : Nat} {cfg : Cfg} {o : StageOrc} {x y : Sol} (h : ROK F nv x.store (x.db, x.s)) (ha : AC x.db x.s) (e : segmentElim cfg o x = .ok y) :
    ∃ u w recs, (cfg.enable = true → EOK F x.s recs u) ∧ RInv u.1.1 u.1.2 ∧ AC u.1.1 u.1.2 ∧ simplify cfg.enable cfg.evo o.cmds o.oom u = .ok w ∧
      y = { x with db := w.1.1, s := w.1.2, store := x.store ++ w.2.lits } := by
  unfold segmentElim at e
  obtain ⟨u, e6, e7⟩ := Res.bind_ok e
  obtain ⟨w, e8, e9⟩ := Res.bind_ok e7
  cases e9
  obtain ⟨recs, g, e'⟩ := h.glob
  by_cases hen : cfg.enable = true
  · rw [hen] at e6
    obtain ⟨p1, p2, p3, p4⟩ := prepare_spec (x := (x.db, x.s)) g.rinv.wf g.dom h.unl e6
    have hE : EOK F x.s recs u := by
      refine ⟨[], ?_, by rw [p3]; rfl, by rw [p1]; exact h.lim, p4, by rw [p1]; exact id, by rw [p1]; exact id, by rw [p1]⟩
      rw [List.append_nil, p1]
      exact g.step (Tr.flags (r := true) g.rinv h.lim p2)
    exact ⟨u, w, recs, fun _ => hE, hE.rinv, by rw [p1]; exact ha.lits p2.lits, e8, rfl⟩
  · have hen' : cfg.enable = false := by simpa using hen
    rw [hen'] at e6
    simp only [prepare, Bool.not_false, if_true] at e6
    cases e6
    exact ⟨_, w, recs, fun h => absurd h hen, g.rinv, ha, e8, rfl⟩

theorem stageStep_ac {F : Form} {nv : Nat} {cfg : Cfg} {o : StageOrc} {low : Nat → Bool} {x y : Sol} (h : SOK F nv x) (ha : AC x.db x.s)
    (e : stageStep cfg o low x = .ok y) : AC y.db y.s := by
  obtain ⟨x3, st⟩ := stageStep_st h ha e
  by_cases hs : o.cycle = true ∧ o.segment = true
  · obtain ⟨z, e1, rfl⟩ := st.seg hs.1 hs.2
    obtain ⟨u, w, recs, h1, h2, h3, h4, rfl⟩ := segmentElim_st (x := { x with db := x3.1, s := x3.2 }) st.rok st.ac e1
    exact (ac_simplify h1 h2 h3 h4).fields rfl rfl
  · rw [st.not hs]
    exact st.ac.fields rfl rfl

theorem searchStep_ac {F : Form} {nv : Nat} {cfg : Cfg} {o : Orc} {x y : Sol} (h : SOK F nv x) (ha : AC x.db x.s) (e : searchStep cfg o x = .ok y) : AC y.db y.s := by
  unfold searchStep at e
  split at e
  · cases e
  rename_i s hd
  obtain ⟨p1, t1, -⟩ := decideStep_spec (k := true) (r := false) h.pinv h.dom hd
  have a1 := decideStep_ac ha hd
  have hg := propagate_good (q := o.q) p1
  split at e
  · rename_i hp; rw [hp] at hg; cases e; exact AC.psteps hg p1.wf a1
  · cases e
  · cases e
  · rename_i db s1 l r hp
    rw [hp] at hg
    split at e
    · cases e
    rename_i hdl
    split at e
    · cases e
    · cases e
    · rename_i db2 s2 hh
      have b1 := (hg.1.all p1).1
      have a2 := AC.psteps hg.1 p1.wf a1
      have t2 : Tr true false x.db s db s1 := hg.1.trn p1.rinv
      have hdm : Dom db s1 := (t1.trans t2).dom h.dom
      have a3 := handle_ac b1 (by omega) a2 hg.2 hh
      have t3 := handle_tr b1 hdm (by omega) hg.2 hh
      have hok : SOK F nv { x with db := db2, s := s2 } := by
        refine h.step ((t1.trans t2).trans t3) ?_
        have := handleConflict_spec (low := o.low) (rr := o.rr) (drift := o.drift) b1 (by omega) hg.2
        rw [hh] at this
        exact this.choose_spec.choose_spec.choose_spec.2.2.inv
      unfold afterConflict at e
      split at e
      · exact stageStep_ac hok a3 e
      · cases e
        split
        · exact a3.step (fun _ h => h) fun _ => gone_cancelUntil
        · exact a3

/-! ## all visited states -/

theorem Head.ac {cfg : Cfg} {F : Form} {x : Sol} (h : Head cfg F x) : AC x.db x.s := by
  induction h with
  | start h e => exact preprocess_ac h e
  | step h hr e ih => obtain ⟨F', -, h1⟩ := h.sok; exact searchStep_ac h1 ih e

theorem Decided.ac {cfg : Cfg} {F : Form} {db : Cdb} {s : Stk} (h : Decided cfg F db s) : AC db s := by
  obtain ⟨h, hr, e⟩ := h
  exact decideStep_ac h.ac e

theorem Propagating.ac {cfg : Cfg} {F : Form} {db : Cdb} {s : Stk} (h : Propagating cfg F db s) : AC db s := by
  induction h with
  | start h => exact h.ac
  | @reused db db' s s' q h e ih =>
    have hg := reuse_good (q := q) h.pinv
    rw [e] at hg
    exact AC.psteps hg h.pinv.wf ih
  | @literal db db' s s' p h hp e ih =>
    have a := advance_step (db := db) hp
    have ih' := (a.all h.pinv).1
    have hg := propLit_good PK.pinv (sandbox := false) (p := p) ih' (ih'.inv.tv p (List.mem_of_getElem? (by simpa using hp)))
    rw [e] at hg
    exact AC.psteps hg ih'.wf (AC.psteps a h.pinv.wf ih)

theorem Inner.ac {cfg : Cfg} {F : Form} {d : DS} {e : Option El} (h : Inner cfg F d e) : AC d.1 d.2 := by
  induction h with
  | built h => exact h.ac
  | restart h low => exact h.ac.step (fun _ h => h) fun _ => gone_cancelUntil
  | clearAsserted h e ih =>
    obtain ⟨F', hF, recs, g, hl, hu⟩ := h.ok
    exact (ka_clearAsserted ⟨g.rinv, g.dom, ih⟩ hl e).1.ac
  | reduce h e ih => exact reduceRes_ac ih e
  | vivify h e ih =>
    obtain ⟨F', hF, recs, g, hl, hu⟩ := h.ok
    exact (ka_vivify ⟨g.rinv, g.dom, ih⟩ hl e).1.ac
  | propagate h e ih =>
    obtain ⟨F', hF, recs, g, hl, hu⟩ := h.ok
    exact ac_propagate g.rinv ih e
  | prepare h e ih =>
    obtain ⟨F', hF, recs, g, hl, hu⟩ := h.ok
    obtain ⟨p1, p2, -, -⟩ := prepare_spec g.rinv.wf g.dom hu e
    rw [p1]; exact ih.lits p2.lits
  | @pure x x1 x2 x3 y targets h e1 e2 e3 e4 =>
    have hb := h.bok.1
    have a1 := ka_vivify (x := (x.db, x.s)) h.ka hb.lim e1
    have a2 := ka_propagate a1.1 a1.2 e2
    have t1 := ((rg_vivify (r := true) (x := (x.db, x.s)) hb.rinv hb.lim hb.dom).ok e1).1
    have t2 := ((rg_propagate (k := true) (r := true) a1.1.rinv a1.2).ok e2).1
    obtain ⟨p1, p2, -, -⟩ := prepare_spec a2.1.rinv.wf a2.1.dom (t2.unl rfl (t1.unl rfl hb.unl)) e3
    obtain ⟨g1, g2⟩ := gone_pureLoop e4
    have a3 : AC y.1.1 y.1.2 := by rw [p1]; exact a2.1.ac.lits p2.lits
    exact a3.step (fun _ => InCls.lits g1) g2
  | command h e' ih =>
    obtain ⟨F', hF, recs, s0, h1⟩ := h.ok
    exact ac_runCmd h1 ih e'
  | stop h ih => exact ih.lits fun _ => rfl

theorem Probe.ac {cfg : Cfg} {F : Form} {db : Cdb} {s : Stk} (h : Probe cfg F db s) : AC db s := by
  induction h with
  | start h => exact h.ac
  | @assign db s l _ _ _ hn ih => exact ih.step (fun _ h => h) fun w hw => gone_push (l := l) rfl rfl hw
  | ok h e ih =>
    have := propagateSandbox_good h.inv
    rw [e] at this
    exact AC.psteps this h.inv.wf ih
  | conflict h e ih =>
    have := propagateSandbox_good h.inv
    rw [e] at this
    exact AC.psteps this.1 h.inv.wf ih

theorem Conflict.ac {cfg : Cfg} {F : Form} {db : Cdb} {s : Stk} {l : Lit} {r : Reason} (h : Conflict cfg F db s l r) : AC db s := by
  obtain ⟨h, e⟩ := h
  rename_i db0 s0 q
  have hg := propagate_good (q := q) h.inv.1
  rw [e] at hg
  exact AC.psteps hg.1 h.inv.1.wf h.ac

theorem Visited.ac {cfg : Cfg} {F : Form} {db : Cdb} {s : Stk} (h : Visited cfg F db s) : AC db s := by
  cases h with
  | head h => exact h.ac
  | decided h => exact h.ac
  | propagating h => exact h.ac
  | @propagated db0 _ s0 _ q h e =>
    have hg := propagate_good (q := q) h.inv.1
    rw [e] at hg
    exact AC.psteps hg h.inv.1.wf h.ac
  | conflict h => exact h.ac
  | handled h hd e => exact handle_ac h.inv.1 hd h.ac h.inv.2.2.1 e
  | inner h => exact h.ac
  | probe h => exact h.ac

end Splr
