import Verif.Lemmas.WatchElim
import Verif.Lemmas.ReachSpec
/-! Watched literals in the main loop. -/
namespace Splr
open Stk

/-! ## a solver under construction -/

/-- Nothing has been propagated yet. -/
structure BW (db : Cdb) (s : Stk) : Prop where
  q : s.qhead = 0
  on : ∀ l, s.tr l → l ∈ s.trail
  cache : Cache db s

theorem BW.wt {db : Cdb} {s : Stk} (h : BW db s) (hl : s.lim = []) : Wt No db s :=
  ⟨h.cache, by rw [hl]; simp, fun i w _ h2 _ => absurd (h.on _ h2.1) (by have := h2.2; rw [h.q] at this; simpa using this)⟩

theorem BW.assignRoot {db db0 : Cdb} {s : Stk} {l : Lit} (hl : s.lim = []) (h : BW db s) (hk : ∀ i, (db0.clause i).lits = (db.clause i).lits)
    (hw : db0.watch = db.watch) : BW db0 (s.assignRoot noLow l).1 := by
  have hc0 : s.cancelUntil noLow 0 = s := cancelUntil_noop (by unfold Stk.dl; rw [hl]; simp)
  unfold Stk.assignRoot
  simp only [hc0]
  have hr : ∀ {s' : Stk}, (∀ m, s.tr m → s'.tr m) → s'.level = upd s.level l.var 0 → Cache db0 s' := by
    intro s' h1 h2 p i b hb
    rw [hw] at hb; rw [hk]
    refine (h.cache p i b hb).imp id fun hr => ⟨h1 _ hr.1, ?_⟩
    rw [h2]; simp only [upd_apply]; split
    · rfl
    · exact hr.2
  cases ha : s.assign l.var with
  | none =>
    refine ⟨h.q, fun m hm => ?_, hr (fun m hm => tr_upd ha rfl hm) rfl⟩
    show m ∈ s.trail ++ [l]
    by_cases e : m.var = l.var
    · have : m = l := tr_var hm (by show upd s.assign l.var (some l.pos) l.var = _; simp) e
      simp [this]
    · have hm : upd s.assign l.var (some l.pos) m.var = some m.pos := hm
      rw [upd_of_ne _ _ e] at hm
      exact List.mem_append_left _ (h.on m hm)
  | some v => exact ⟨h.q, h.on, hr (fun _ h => h) rfl⟩

theorem BW.addUnchecked {F : Form} {x y : Sol} {c : Cls} {r : RefClause} (hb : BOK F x) (h : BW x.db x.s) (e : x.addUnchecked c = some (y, r)) : BW y.db y.s := by
  unfold Sol.addUnchecked at e
  split at e
  · cases e; exact h
  cases hn : normLits x.s.val (sortLits c) none with
  | none => rw [hn] at e; cases e; exact h
  | some v =>
    rw [hn] at e
    match v, hn with
    | [], _ => cases e; exact h
    | [l], _ =>
      simp only [] at e
      have := h.assignRoot (l := l) hb.lim (db0 := x.db.log (.add [l])) (fun _ => rfl) rfl
      split at e <;> (rename_i s1 heq; rw [heq] at this; cases e; exact this)
    | a :: b :: tl, hn =>
      simp only [] at e
      split at e
      · simp at e
      · rename_i db1 r1 hc
        cases e
        have hnd : ((a :: b :: tl).map Lit.var).Nodup :=
          List.pairwise_map.2 ((normLits_some (sortLits_sorted c) (by simp) hn).2.2.1.imp fun h => Nat.ne_of_lt h)
        have := Wt.add (E := fun _ _ => True) hb.rinv.wf hnd (Wt.ofCache hb.lim h.cache) (fun _ _ _ => trivial) hc fun _ _ _ _ _ hE => (hE trivial).elim
        exact ⟨h.q, h.on, this.cache⟩

theorem Built.bw {F : Form} {x : Sol} (h : Built F x) : BW x.db x.s := by
  induction h with
  | new nv =>
    refine ⟨rfl, fun l hl => ?_, fun p i b hb => ?_⟩
    · simp [Stk.tr, Sol.new, Stk.new] at hl
    · simp [Sol.new, Cdb.new] at hb
  | addVar h ih => exact ⟨ih.q, ih.on, ih.cache⟩
  | @addClause F x y v h e ih =>
    unfold Sol.addClause at e
    split at e
    · cases e
    split at e
    · cases e
    split at e
    · simp at e
    · cases e
    · rename_i y' r hne heq; cases e; exact ih.addUnchecked h.bok.1 heq
  | @rejected F x y v err h e ih =>
    unfold Sol.addClause at e
    split at e
    · cases e; exact ih
    split at e
    · cases e; exact ih
    split at e
    · simp at e
    · rename_i y' heq; cases e; exact ih.addUnchecked h.bok.1 heq
    · cases e
  | @addAssignment F x y i h e ih =>
    unfold Sol.addAssignment at e
    split at e
    · cases e
    simp only [] at e
    split at e
    · have := ih.assignRoot (l := Lit.ofInt i) h.bok.1.lim (db0 := x.db.log (.add [Lit.ofInt i])) (fun _ => rfl) rfl
      split at e
      · rename_i s1 heq; rw [heq] at this; cases e; exact this
      · cases e
    · cases e; exact ⟨ih.q, ih.on, ih.cache⟩
    · cases e
  | @rejectedAssignment F x y i h e ih =>
    unfold Sol.addAssignment at e
    split at e
    · cases e; exact ih
    simp only [] at e
    split at e
    · split at e <;> cases e
    · cases e
    · cases e
  | @line F x y c r h hc e hr ih => exact ih.addUnchecked h.bok.1 e

/-! ## preprocessing -/

/-- After an elimination: the eliminator is disabled, it has changed no clause, or it has left no false literal in a clause
that is not satisfied. -/
def Tended (cfg : Cfg) (cmds : List ECmd) (y : Sol) : Prop := cfg.enable = false ∨ (∀ c ∈ cmds, c.tame) ∨ Swept0 y.db y.s

theorem preprocess_wt {cfg : Cfg} {F : Form} {o : Pre} {x y : Sol} (h : Built F x) (e : preprocess cfg o x = .ok y) (ht : Tended cfg o.cmds y) :
    Wt No y.db y.s := by
  have hb := h.bok.1
  unfold preprocess at e
  split at e
  · cases e
  obtain ⟨x1, e1, e⟩ := Res.bind_ok e
  obtain ⟨x2, e2, e⟩ := Res.bind_ok e
  obtain ⟨z, e3, e⟩ := Res.bind_ok e
  obtain ⟨x3, e4, e⟩ := Res.bind_ok e
  obtain ⟨w, e5, e⟩ := Res.bind_ok e
  cases e
  have k1 := kw_vivify (x := (x.db, x.s)) ⟨hb.rinv, hb.dom, h.bw.wt hb.lim⟩ hb.lim e1
  have hoom : ∀ {α : Type} {r : Res α} {b : Bool} {a : α}, r.orOom b = .ok a → r = .ok a := by
    intro α r b a h
    cases r with
    | unsat db s => unfold Res.orOom at h; simp only [] at h; split at h <;> simp at h
    | _ => exact h
  have e2 := hoom e2
  obtain ⟨u, e6, e7⟩ := Res.bind_ok e2
  split at e7
  · cases e7
  cases e7
  have k2 := kw_propagate k1.1 k1.2 e6
  have c2 : CE False x2 := ⟨k2.1.rinv.wf, k2.1.rinv.inv, k2.2, k2.1.wt⟩
  have c4 : CE False x3 := ce_pureLoop (ce_prepare e3 c2) e4
  have e5 := hoom e5
  have fin : CE False w.1 → Wt No w.1.1 w.1.2.rebuildOrder := fun h => h.wt.stkEq rfl rfl rfl rfl rfl
  rcases ht with ht | ht | ht
  · exact fin (ce_simplify (y := (x3, z.2)) (.inr (.inl ht)) c4 e5).1
  · exact fin (ce_simplify (y := (x3, z.2)) (.inr (.inr ht)) c4 e5).1
  · have := (ce_simplify (B := True) (y := (x3, z.2)) (.inl trivial) ⟨c4.wf, c4.inv, c4.lim, c4.wt.mono fun _ _ _ => trivial⟩ e5).1
    exact fin (this.swept ht)

/-! ## conflicts -/

theorem learnClause_wt {Z : Lit → Prop} {db : Cdb} {s : Stk} (h : PInv db s) (hw : Wt (fun _ w => Z w ∨ s.dl ≤ s.level w.var) db s) {low : Nat → Bool} {drift : Bool} {v : Cls} {lv : Nat}
    (hv : LearntOK db s v lv) {db' : Cdb} {s' : Stk} (e : learnClause db s low drift v lv = .ok db' s') : Wt (fun _ w => Z w) db' s' := by
  obtain ⟨l0, rest, rfl, t0, e0, hr, -, hm⟩ := hv.asserting
  cases rest with
  | nil => simp [learnClause] at e
  | cons l1 tl =>
  have hlv1 := hm l1 tl rfl
  have hlt : lv < s.dl := by rw [← hlv1]; exact (hr l1 (by simp)).2.1
  unfold learnClause at e
  simp only [] at e
  have cases2 : ∀ {w}, W2 (l0 :: l1 :: tl) w → w = l0 ∨ w = l1 := fun h => W2.iff.1 h
  by_cases hdr : (drift && decide (0 < lv) && decide (2 < (l0 :: l1 :: tl).length)) = true
  · rw [hdr] at e
    simp only [if_true] at e
    have hpos : 0 < lv := by simp only [Bool.and_eq_true, decide_eq_true_eq] at hdr; exact hdr.1.2
    have w1 : Wt (fun _ w => Z w) db (s.cancelUntil low (lv - 1)).clearSaved := (hw.cancelUntil h.inv low (by omega)).stkEq rfl rfl rfl rfl rfl
    have key : ∀ {db1 rf}, db.newClause (s.cancelUntil low (lv - 1)).clearSaved.level (l0 :: l1 :: tl) true = some (db1, rf) → Wt (fun _ w => Z w) db1 (s.cancelUntil low (lv - 1)).clearSaved := by
      intro db1 rf en
      refine Wt.add h.wf hv.nd w1 (fun _ _ h => h) en fun i _ w hw2 hd _ => ?_
      exfalso
      refine tr_assigned hd.1 ?_
      show (s.cancelUntil low (lv - 1)).assign w.neg.var = none
      rw [Lit.neg_var, cancelUntil_assign h.inv, if_neg]
      rcases cases2 hw2 with rfl | rfl <;> omega
    split at e
    · simp at e
    · rename_i en; cases e; exact key en
    · rename_i en; cases e; exact key en
    · simp at e
  · rw [Bool.not_eq_true] at hdr
    rw [hdr] at e
    simp only [Bool.false_eq_true, if_false] at e
    have w1 : Wt (fun _ w => Z w) db (s.cancelUntil low lv) := hw.cancelUntil h.inv low hlt
    have hi1 : Inv db (s.cancelUntil low lv) := (Tr.cancelUntil (k := true) h.rinv low lv).rinv.inv
    have n0 : (s.cancelUntil low lv).assign l0.var = none := by rw [cancelUntil_assign h.inv, if_neg (by omega)]
    have push : ∀ {E : Nat → Lit → Prop} {db1 : Cdb} (r : Reason), Wt E db1 (s.cancelUntil low lv) → Wt E db1 ((s.cancelUntil low lv).assignImpl l0 r lv) := by
      intro E db1 r h1
      obtain ⟨f1, f2, f3, f4, f5, f6, -⟩ := assignImpl_fields (s.cancelUntil low lv) l0 r lv
      exact h1.push hi1.qh n0 f1 f2 f4 f6 (by rw [f5]; exact h1.cur)
    split at e
    · simp at e
    · rename_i db1 cid en
      cases e
      obtain ⟨-, hs⟩ := Cdb.newClause_spec h.wf hv.nd en
      have hcid : (db'.clause cid).lits = l0 :: l1 :: tl := by
        rcases hs with ⟨c', a, b, hr', -⟩ | ⟨c', c, hr', h0, hlt', hold, hcl, h2, hsf, hlr, hbl, hcc, hcert⟩
        · cases hr'
        · cases hr'; rw [hcc]; simp [hcl]
      have w2 : Wt (fun i w => Z w ∨ (i = cid ∧ w = l1)) db' (s.cancelUntil low lv) := by
        refine Wt.add h.wf hv.nd w1 (fun _ _ h => .inl h) en fun i hi w hw2 hd hE => ?_
        cases hi
        rcases cases2 hw2 with rfl | rfl
        · exact absurd n0 (by have := tr_assigned hd.1; rwa [Lit.neg_var] at this)
        · exact absurd (.inr ⟨rfl, rfl⟩) hE
      refine (push _ w2).weaken fun i w h1 h2 h3 hz => ?_
      obtain ⟨rfl, rfl⟩ := h3.resolve_left hz
      refine ⟨l0, by rw [hcid]; simp, ?_, ?_⟩
      · unfold Stk.tr; rw [(assignImpl_fields _ _ _ _).1]; simp
      · rw [(assignImpl_fields _ _ _ _).2.1]
        have hne : w.var ≠ l0.var := by
          have := hv.nd; simp at this; intro e; exact this.1.1 e.symm
        rw [upd_same, upd_of_ne _ _ hne, cancelUntil_level]; omega
    · rename_i db1 cid en
      cases e
      refine push _ (Wt.add h.wf hv.nd w1 (fun _ _ h => h) en fun i hi => ?_)
      cases hi
    · simp at e

theorem learnUnit_wt {Z : Lit → Prop} {db : Cdb} {s : Stk} (h : PInv db s) (hd : 0 < s.dl) (hw : Wt (fun _ w => Z w ∨ s.dl ≤ s.level w.var) db s) {low : Nat → Bool} {l0 : Lit}
    {db' : Cdb} {s' : Stk} (e : learnUnit db s low l0 = .ok db' s') : Wt (fun _ w => Z w) db' s' := by
  unfold learnUnit at e
  split at e
  · simp at e
  split at e
  · simp at e
  have t1 : Tr true false db s db (s.cancelUntil low 0) := Tr.cancelUntil h.rinv low 0
  have w1 : Wt (fun _ w => Z w) db (s.cancelUntil low 0) := hw.cancelUntil h.inv low hd
  rw [assignRoot_cancel] at e
  split at e
  · rename_i s1 heq
    cases e
    refine (w1.assignRootRes (y := (db.log (.add [l0]), s')) (l := l0) t1.rinv.inv cancelUntil_lim0 (db0 := db.log (.add [l0])) (fun _ => rfl) rfl ?_).2
    unfold Stk.assignRootRes; rw [heq]
  · simp at e

theorem handle_wt {Z : Lit → Prop} {db : Cdb} {s : Stk} (h : PInv db s) (hd : 0 < s.dl) (hw : Wt (fun _ w => Z w ∨ s.dl ≤ s.level w.var) db s) {low : Nat → Bool} {rr : Option Nat}
    {drift : Bool} {l : Lit} {r : Reason} (hc : ConfOK db s l r) {db' : Cdb} {s' : Stk} (e : handleConflict db s low rr drift l r = .ok db' s') : Wt (fun _ w => Z w) db' s' := by
  have hp1 : PInv (db.rerankOne s.level rr) s := h.grow (wf_rerankOne h.wf _ _) (fun i _ => (rerankOne_lits db s.level rr i).1)
  have hw1 : Wt (fun _ w => Z w ∨ s.dl ≤ s.level w.var) (db.rerankOne s.level rr) s := hw.dbEq (fun i => (rerankOne_lits db s.level rr i).1) (by
    cases rr with
    | none => rfl
    | some c => simp only [Cdb.rerankOne]; split <;> rfl)
  unfold handleConflict at e
  split at e
  · simp at e
  split at e
  · simp at e
  · simp at e
  · exact learnUnit_wt hp1 hd hw1 e
  · rename_i v lv seen hn0 hn1 ea
    have hl := (conflictAnalyze_spec h.wf h.inv hd hc ea).1
    exact learnClause_wt hp1 hw1 (hl.congr fun i => (rerankOne_lits db s.level rr i).1) e

/-! ## decisions -/

theorem selectVar_fields {pick : List Nat → Nat} : ∀ {n : Nat} {s : Stk} {v : Nat} {s1 : Stk}, selectVar pick n s = some (v, s1) →
    s1.assign = s.assign ∧ s1.level = s.level ∧ s1.trail = s.trail ∧ s1.qhead = s.qhead ∧ s1.lim = s.lim
  | 0, _, _, _, e => by simp [selectVar] at e
  | n + 1, s, v, s1, e => by
    unfold selectVar at e
    cases hr : s.heapRoot pick with
    | none => rw [hr] at e; simp at e
    | some w =>
      obtain ⟨w, s2⟩ := w
      rw [hr] at e; simp only [] at e
      have h2 : s2.assign = s.assign ∧ s2.level = s.level ∧ s2.trail = s.trail ∧ s2.qhead = s.qhead ∧ s2.lim = s.lim := by
        unfold heapRoot at hr
        by_cases hh : s.heap = []
        · rw [if_pos hh] at hr
          simp only [] at hr
          split at hr
          · simp at hr
          · simp only [Option.some.injEq, Prod.mk.injEq] at hr
            rw [← hr.2]; exact ⟨rfl, rfl, rfl, rfl, rfl⟩
        · rw [if_neg hh] at hr
          simp only [] at hr
          split at hr
          · simp at hr
          · simp only [Option.some.injEq, Prod.mk.injEq] at hr
            rw [← hr.2]; exact ⟨rfl, rfl, rfl, rfl, rfl⟩
      split at e
      · cases e; exact h2
      · obtain ⟨a, b, c, d, e⟩ := selectVar_fields e
        exact ⟨a.trans h2.1, b.trans h2.2.1, c.trans h2.2.2.1, d.trans h2.2.2.2.1, e.trans h2.2.2.2.2⟩

theorem decideStep_wt {Z : Lit → Prop} {o : Orc} {db : Cdb} {s s' : Stk} (h : PInv db s) (hw : Wt (fun _ w => Z w) db s) (e : decideStep o s = some s') : Wt (fun _ w => Z w) db s' := by
  unfold decideStep at e
  split at e
  · cases e; exact hw
  rename_i hr
  split at e
  · simp at e
  · rename_i v s1 hs
    cases e
    obtain ⟨f1, f2, f3, f4, f5⟩ := selectVar_fields hs
    obtain ⟨s0, p0, t0, rfl, hm, ha, -⟩ := selectVar_spec (k := true) (r := true) h hs
    have hr : s.remains = false := by simpa using hr
    refine (hw.stkEq f1 f2 f3 f4 f5).assignDecision (p0.heap _).inv ?_ ha
    unfold Stk.remains at *; rw [f3, f4]; exact hr

/-! ## the end of a stage -/

theorem Wt.foldRemove {Z : Lit → Prop} {s : Stk} : ∀ {vs : List Nat} {db db' : Cdb}, db.WF → Wt (fun _ w => Z w) db s → vs.foldlM Cdb.removeClause db = some db' → Wt (fun _ w => Z w) db' s
  | [], db, db', _, h, e => by simp at e; subst e; exact h
  | v :: vs, db, db', hw, h, e => by
    simp only [List.foldlM_cons] at e
    obtain ⟨d, e1, e2⟩ := Option.bind_eq_some_iff.1 e
    exact Wt.foldRemove (Cdb.removeClause_spec hw e1).1 (h.remove hw e1) e2

theorem reduce_wt {Z : Lit → Prop} {db db' : Cdb} {s : Stk} {victims : List Nat} (hw : db.WF) (h : Wt (fun _ w => Z w) db s) (e : db.reduce s.level victims = some db') : Wt (fun _ w => Z w) db' s := by
  have h1 : Wt (fun _ w => Z w) (db.rerank s.level) s := h.dbEq (fun i => (rerank_same db s.level i).1) rfl
  exact h1.foldRemove (Cdb.wf_rerank hw s.level) e

theorem stageStep_wt {F : Form} {nv : Nat} {cfg : Cfg} {o : StageOrc} {low : Nat → Bool} {x y : Sol} (h : SOK F nv x) (hw : Wt No x.db x.s)
    (e : stageStep cfg o low x = .ok y) (ht : o.cycle = true → o.segment = true → Tended cfg o.cmds y) : Wt No y.db y.s := by
  unfold stageStep at e
  split at e
  · cases e
  obtain ⟨x1, e1, e⟩ := Res.bind_ok e
  obtain ⟨x2, e2, e⟩ := Res.bind_ok e
  obtain ⟨z, e3, e⟩ := Res.bind_ok e
  cases e
  have t1 : Tr true false x.db x.s x.db (x.s.restart low) := Tr.cancelUntil h.pinv.rinv low 0
  have k0 : KW (fun _ => False) (x.db, x.s.restart low) := ⟨t1.rinv, t1.dom h.dom, hw.cancelUntil' h.pinv.inv low 0⟩
  have k1 := kw_clearAsserted k0 (cancelUntil_lim0) e1
  have k2 : KW (fun _ => False) x2 ∧ x2.2.lim = [] := by
    unfold Cdb.reduceRes at e2
    split at e2
    · cases e2
    · rename_i db1 hr
      cases e2
      have t2 := (reduce_tr (r := true) k1.1.rinv k1.2 hr).1
      exact ⟨⟨t2.rinv, t2.dom k1.1.dom, reduce_wt k1.1.rinv.wf k1.1.wt hr⟩, k1.2⟩
  suffices hz : Wt No z.db z.s from hz.stkEq rfl rfl rfl rfl rfl
  split at e3
  · rename_i hcy
    obtain ⟨x3, e4, e5⟩ := Res.bind_ok e3
    have k3 := kw_vivify k2.1 k2.2 e4
    simp only [] at e5
    split at e5
    · rename_i hsg
      unfold segmentElim at e5
      obtain ⟨u, e6, e7⟩ := Res.bind_ok e5
      obtain ⟨w, e8, e9⟩ := Res.bind_ok e7
      cases e9
      have c3 : CE False x3 := ⟨k3.1.rinv.wf, k3.1.rinv.inv, k3.2, k3.1.wt⟩
      have c4 := ce_prepare (x := (x3.1, x3.2)) e6 c3
      rcases ht hcy hsg with ht | ht | ht
      · exact (ce_simplify (.inr (.inl ht)) c4 e8).1.wt
      · exact (ce_simplify (.inr (.inr ht)) c4 e8).1.wt
      · have := (ce_simplify (B := True) (.inl trivial) ⟨c4.wf, c4.inv, c4.lim, c4.wt.mono fun _ _ _ => trivial⟩ e8).1
        exact (this.swept ht).wt
    · cases e5; exact k3.1.wt
  · cases e3; exact k2.1.wt

theorem searchStep_wt {F : Form} {nv : Nat} {cfg : Cfg} {o : Orc} {x y : Sol} (h : SOK F nv x) (hw : Wt No x.db x.s) (e : searchStep cfg o x = .ok y)
    (ht : ∀ st, o.stage = some st → st.cycle = true → st.segment = true → Tended cfg st.cmds y) : Wt No y.db y.s := by
  unfold searchStep at e
  split at e
  · cases e
  rename_i s hd
  obtain ⟨p1, t1, -⟩ := decideStep_spec (k := true) (r := false) h.pinv h.dom hd
  have w1 := decideStep_wt h.pinv hw hd
  have hg := propagate_good (q := o.q) p1
  have hpw := propagate_wt (q := o.q) p1 w1
  split at e
  · rename_i hp; rw [hp] at hpw; cases e; exact hpw
  · cases e
  · cases e
  · rename_i db s1 l r hp
    rw [hp] at hg hpw
    split at e
    · cases e
    rename_i hdl
    split at e
    · cases e
    · cases e
    · rename_i db2 s2 hh
      obtain ⟨a1, a2, -⟩ := hg.1.all p1
      have t2 : Tr true false x.db s db s1 := hg.1.trn p1.rinv
      have hdm : Dom db s1 := (t1.trans t2).dom h.dom
      have w2 := handle_wt (Z := fun _ => False) a1 (by omega) (Wt.mono hpw fun _ _ h => .inr h) hg.2 hh
      have t3 := handle_tr a1 hdm (by omega) hg.2 hh
      have hok : SOK F nv { x with db := db2, s := s2 } := by
        refine h.step ((t1.trans t2).trans t3) ?_
        have := handleConflict_spec (low := o.low) (rr := o.rr) (drift := o.drift) a1 (by omega) hg.2
        rw [hh] at this
        exact this.choose_spec.choose_spec.choose_spec.2.2.inv
      unfold afterConflict at e
      split at e
      · rename_i st hst
        exact stageStep_wt hok w2 e (ht st hst)
      · cases e
        split
        · exact w2.cancelUntil' hok.pinv.inv o.low2 0
        · exact w2

end Splr
