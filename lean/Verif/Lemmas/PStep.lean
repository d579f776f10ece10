import Verif.Lemmas.StkCut
/-! Propagation as a sequence of small steps. -/
namespace Splr

/-- One elementary effect of a propagation on the database and the assignment stack. -/
inductive PStep : Cdb → Stk → Cdb → Stk → Prop
  | restore {db s} (l : Lit) (idx : Nat) (op : Option Lit) : PStep db s (db.restoreWatch l idx op) s
  | move {db s} (p : Lit) (idx cid old k sf : Nat) (b lk other : Lit) (hi : (db.watch p)[idx]? = some (cid, b))
      (ho : old ≤ 1) (ha : (db.clause cid).lits[old]? = some p.neg) (hb : (db.clause cid).lits[1 - old]? = some other)
      (h2 : 2 ≤ k) (hk : (db.clause cid).lits[k]? = some lk) (hs : 2 ≤ sf) (hp : s.tr p) (ht : ¬ s.tr other) (hf : ¬ s.tr lk.neg) :
      PStep db s (db.moveWatch p idx cid old k sf) s
  | swap {db s} (cid : Nat) (l0 l1 l2 : Lit) (tl : Cls) (hl : (db.clause cid).lits = l0 :: l1 :: l2 :: tl) (h0 : s.tr l0.neg) :
      PStep db s (db.swapWatch cid) s
  | imply {db s} (l : Lit) (r : Reason) (hn : s.assign l.var = none) (hr : Stk.Implied db s l r) :
      PStep db s db (s.assignImpl l r s.dl)
  | advance {db s} (h : s.qhead < s.trail.length) : PStep db s db { s with qhead := s.qhead + 1 }
  | drop {db s} (l : Lit) (todo : List Lit) (h : s.saved = l :: todo) (ht : s.tr l) : PStep db s db { s with saved := todo }
  | heap {db s} (v : Nat) (h : v ∈ s.saved.map Lit.var) : PStep db s db (s.insertHeap v)
  | clear {db s} : PStep db s db s.clearSaved

inductive PSteps : Cdb → Stk → Cdb → Stk → Prop
  | refl {db s} : PSteps db s db s
  | cons {db s db1 s1 db2 s2} (h : PStep db s db1 s1) (t : PSteps db1 s1 db2 s2) : PSteps db s db2 s2

theorem PSteps.one {db s db' s'} (h : PStep db s db' s') : PSteps db s db' s' := .cons h .refl

theorem PSteps.trans {db s db1 s1 db2 s2} (h : PSteps db s db1 s1) (t : PSteps db1 s1 db2 s2) : PSteps db s db2 s2 := by
  induction h with
  | refl => exact t
  | cons h _ ih => exact .cons h (ih t)

namespace Cdb

theorem same_restoreWatch (db : Cdb) (l : Lit) (idx : Nat) (op : Option Lit) :
    (db.restoreWatch l idx op).clause = db.clause ∧ (db.restoreWatch l idx op).len = db.len ∧
    (db.restoreWatch l idx op).cert = db.cert ∧ (db.restoreWatch l idx op).blist = db.blist := by
  unfold restoreWatch; split <;> exact ⟨rfl, rfl, rfl, rfl⟩

theorem same_clause {db db' : Cdb} (h : db'.clause = db.clause) (hl : db'.len = db.len) (hc : db'.cert = db.cert) : Same db db' :=
  ⟨fun i => by rw [h], fun i => by rw [h], fun i => by rw [h], fun i => by rw [h], fun i _ => by rw [h], hl, hc⟩

/-- Rearranging one clause of three or more literals. -/
theorem same_upd {db db' : Cdb} {cid : Nat} {lits : Cls} {sf : Nat} (hl : 3 ≤ (db.clause cid).lits.length)
    (hp : lits.Perm (db.clause cid).lits)
    (h : db'.clause = upd db.clause cid { db.clause cid with lits := lits, searchFrom := sf }) (hn : db'.len = db.len)
    (hc : db'.cert = db.cert) : Same db db' := by
  refine ⟨fun i => ?_, fun i => ?_, fun i => ?_, fun i => ?_, fun i hi => ?_, hn, hc⟩ <;> rw [h] <;> simp only [upd_apply] <;> split
  · rename_i e; subst e; exact hp
  · exact .refl _
  · rename_i e; subst e; rfl
  · rfl
  · rename_i e; subst e; rfl
  · rfl
  · rename_i e; subst e; rfl
  · rfl
  · rename_i e; subst e; omega
  · rfl

end Cdb

theorem PStep.db {db s db' s'} (h : PStep db s db' s') (hw : db.WF) : db'.WF ∧ Cdb.Same db db' := by
  cases h with
  | restore l idx op =>
    obtain ⟨c1, c2, c3, -⟩ := Cdb.same_restoreWatch db l idx op
    exact ⟨Cdb.wf_restoreWatch hw l idx op, Cdb.same_clause c1 c2 c3⟩
  | move p idx cid old k sf b lk other hi ho ha hb h2 hk hs hp ht hf =>
    obtain ⟨w, c1, -, -, -, -, -, c2, -, -, c3⟩ := Cdb.moveWatch_spec hw hi ho ha hb h2 hk hs
    refine ⟨w, Cdb.same_upd ?_ (swapAt_perm' _ _ _) c1 c2 c3⟩
    have := (List.getElem?_eq_some_iff.1 hk).1; omega
  | swap cid l0 l1 l2 tl hl h0 =>
    refine ⟨Cdb.wf_swapWatch hw (by rw [hl]; simp), Cdb.same_upd (cid := cid) (sf := (db.clause cid).searchFrom) (by rw [hl]; simp)
      (swapAt_perm' _ 0 1) rfl rfl rfl⟩
  | imply => exact ⟨hw, .refl _⟩
  | advance => exact ⟨hw, .refl _⟩
  | drop => exact ⟨hw, .refl _⟩
  | heap => exact ⟨hw, .refl _⟩
  | clear => exact ⟨hw, .refl _⟩
where
  swapAt_perm' (c : Cls) (i j : Nat) : (swapAt c i j).Perm c := Cdb.swapAt_perm c i j

/-- What a propagation step never changes or only extends. -/
structure Stk.Ext (s s' : Stk) : Prop where
  tr : ∀ l, s.tr l → s'.tr l
  trail : ∃ t, s'.trail = s.trail ++ t
  lim : s'.lim = s.lim
  elim : s'.elim = s.elim
  numVars : s'.numVars = s.numVars
  numAsserted : s'.numAsserted = s.numAsserted
  numElim : s'.numElim = s.numElim
  qhead : s.qhead ≤ s'.qhead
  level : ∀ v, s.assign v ≠ none → s'.level v = s.level v
  savedSub : ∃ t, s.saved = t ++ s'.saved
  reasonSaved : s'.reasonSaved = s.reasonSaved

theorem Stk.Ext.refl (s : Stk) : Stk.Ext s s :=
  ⟨fun _ h => h, ⟨[], by simp⟩, rfl, rfl, rfl, rfl, rfl, Nat.le_refl _, fun _ _ => rfl, ⟨[], rfl⟩, rfl⟩

theorem Stk.tr_of_assign {s : Stk} {v : Nat} (h : s.assign v ≠ none) : ∃ b, s.tr ⟨v, b⟩ := by
  cases e : s.assign v with
  | none => exact absurd e h
  | some b => exact ⟨b, e⟩

theorem Stk.Ext.trans {a b c : Stk} (h1 : Stk.Ext a b) (h2 : Stk.Ext b c) : Stk.Ext a c := by
  obtain ⟨t1, e1⟩ := h1.trail
  obtain ⟨t2, e2⟩ := h2.trail
  obtain ⟨u1, f1⟩ := h1.savedSub
  obtain ⟨u2, f2⟩ := h2.savedSub
  refine ⟨fun l h => h2.tr l (h1.tr l h), ⟨t1 ++ t2, by rw [e2, e1]; simp⟩, h2.lim.trans h1.lim, h2.elim.trans h1.elim,
    h2.numVars.trans h1.numVars, h2.numAsserted.trans h1.numAsserted, h2.numElim.trans h1.numElim,
    Nat.le_trans h1.qhead h2.qhead, fun v hv => ?_, ⟨u1 ++ u2, by rw [f1, f2]; simp⟩, h2.reasonSaved.trans h1.reasonSaved⟩
  obtain ⟨x, hx⟩ := Stk.tr_of_assign hv
  rw [h2.level v (Stk.tr_assigned (h1.tr _ hx)), h1.level v hv]

theorem PStep.ext {db s db' s'} (h : PStep db s db' s') : Stk.Ext s s' := by
  cases h with
  | restore => exact .refl _
  | move => exact .refl _
  | swap => exact .refl _
  | imply l r hn hr =>
    obtain ⟨f1, f2, f3, f4, f5, f6, f7, f8, f9, f10⟩ := Stk.assignImpl_fields s l r s.dl
    refine ⟨fun m hm => Stk.tr_upd hn f1 hm, ⟨[l], f4⟩, f5, f9, f10, ?_, ?_, by rw [f6], fun v hv => ?_, ⟨[], by rw [f7]; rfl⟩, f8⟩
    · unfold Stk.assignImpl; simp only []; split <;> rfl
    · unfold Stk.assignImpl; simp only []; split <;> rfl
    · rw [f2, upd_of_ne]; intro e; subst e; exact hv hn
  | advance => exact ⟨fun _ h => h, ⟨[], by simp⟩, rfl, rfl, rfl, rfl, rfl, by simp, fun _ _ => rfl, ⟨[], rfl⟩, rfl⟩
  | drop l todo h ht => exact ⟨fun _ h => h, ⟨[], by simp⟩, rfl, rfl, rfl, rfl, rfl, Nat.le_refl _, fun _ _ => rfl, ⟨[l], h⟩, rfl⟩
  | heap => exact ⟨fun _ h => h, ⟨[], by simp [Stk.insertHeap]⟩, rfl, rfl, rfl, rfl, rfl, Nat.le_refl _, fun _ _ => rfl, ⟨[], rfl⟩, rfl⟩
  | clear => exact ⟨fun _ h => h, ⟨[], by simp⟩, rfl, rfl, rfl, rfl, rfl, Nat.le_refl _, fun _ _ => rfl, ⟨s.saved, by simp⟩, rfl⟩

open Stk in
theorem PStep.inv {db s db' s'} (h : PStep db s db' s') (hw : db.WF) (hi : Inv db s) (hs : SavedOK db s) :
    Inv db' s' ∧ SavedOK db' s' := by
  obtain ⟨hw', hsame⟩ := h.db hw
  cases h with
  | restore l idx op =>
    obtain ⟨c1, -⟩ := Cdb.same_restoreWatch db l idx op
    refine ⟨hi.congr rfl rfl rfl rfl rfl hi.qh (fun _ _ _ h _ => by rw [c1]; exact h) (fun _ _ h => hsame.binC h),
      hs.congr rfl rfl rfl hsame.mem (fun _ _ h => hsame.binC h) (fun _ _ _ h => by rw [c1]; exact h)⟩
  | move p idx cid old k sf b lk other hii ho ha hb h2 hk hss hp ht hf =>
    obtain ⟨-, c1, -⟩ := Cdb.moveWatch_spec hw hii ho ha hb h2 hk hss
    have hl0 : ∀ x, (db.clause cid).lits[0]? = some x → ¬ s.tr x := by
      intro x hx hxt
      rcases Nat.le_one_iff_eq_zero_or_eq_one.1 ho with rfl | rfl
      · rw [ha] at hx; cases hx; exact tr_not_neg hp hxt
      · rw [hb] at hx; cases hx; exact ht hxt
    refine ⟨hi.congr rfl rfl rfl rfl rfl hi.qh (fun c l rest h hl => ?_) (fun _ _ h => hsame.binC h),
      hs.congr rfl rfl rfl hsame.mem (fun _ _ h => hsame.binC h) (fun c l hn h => ?_)⟩
    · rw [c1]; simp only [upd_apply]; split
      · rename_i e; subst e; exact absurd hl (hl0 l (by rw [h]; rfl))
      · exact h
    · rw [c1]; simp only [upd_apply]; split
      · rename_i e; subst e
        rcases Nat.le_one_iff_eq_zero_or_eq_one.1 ho with rfl | rfl
        · rw [ha] at h; cases h; have : s.assign p.var ≠ none := tr_assigned hp
          exact absurd hn this
        · have := (Cdb.swapAt_watched (c := (db.clause c).lits) (old := 1) (by omega) h2 ha hb hk).2
          simp only [Nat.sub_self] at this hb ⊢
          rw [this, ← hb, h]
      · exact h
  | swap cid l0 l1 l2 tl hl h0 =>
    refine ⟨hi.congr rfl rfl rfl rfl rfl hi.qh (fun c l rest h hlt => ?_) (fun _ _ h => hsame.binC h),
      hs.congr rfl rfl rfl hsame.mem (fun _ _ h => hsame.binC h) (fun c l hn h => ?_)⟩
    · simp only [Cdb.swapWatch, Cdb.setC, upd_apply]; split
      · rename_i e; subst e; rw [hl] at h; cases h; exact absurd h0 (tr_not_neg hlt)
      · exact h
    · simp only [Cdb.swapWatch, Cdb.setC, upd_apply]; split
      · rename_i e; subst e; rw [hl] at h; simp at h; subst h
        have h1 := tr_assigned h0
        rw [Lit.neg_var] at h1; exact absurd hn h1
      · exact h
  | imply l r hn hr =>
    obtain ⟨f1, -, -, -, -, -, f7, f8, -⟩ := assignImpl_fields s l r s.dl
    exact ⟨hi.assignImpl hn hr, hs.push hn f1 f7 f8⟩
  | advance h =>
    exact ⟨hi.congr rfl rfl rfl rfl rfl h (fun _ _ _ h _ => h) (fun _ _ h => h),
      hs.congr rfl rfl rfl (fun _ _ => .rfl) (fun _ _ h => h) (fun _ _ _ h => h)⟩
  | drop l todo h ht =>
    refine ⟨hi.congr rfl rfl rfl rfl rfl hi.qh (fun _ _ _ h _ => h) (fun _ _ h => h), ?_⟩
    intro pre x post e
    simp only [] at e
    have hr := hs (l :: pre) x post (by rw [h, e]; rfl)
    unfold SavedAt at *
    simp only []
    cases hrl : s.reasonSaved x.var <;> rw [hrl] at hr <;> simp only [] at hr ⊢
    · refine ⟨hr.1, ?_⟩
      rcases hr.2 with h1 | h1
      · exact .inl h1
      · rcases List.mem_cons.1 h1 with e | h1
        · left; rw [e]; exact ht
        · exact .inr h1
    · refine ⟨hr.1, fun y hy => ?_, hr.2.2⟩
      rcases hr.2.1 y hy with h1 | h1 | h1
      · exact .inl h1
      · exact .inr (.inl h1)
      · rcases List.mem_cons.1 h1 with e | h1
        · right; left; rw [e]; exact ht
        · exact .inr (.inr h1)
  | heap => exact ⟨hi.congr rfl rfl rfl rfl rfl hi.qh (fun _ _ _ h _ => h) (fun _ _ h => h),
      hs.congr rfl rfl rfl (fun _ _ => .rfl) (fun _ _ h => h) (fun _ _ _ h => h)⟩
  | clear => exact ⟨hi.clearSaved, savedOK_nil rfl⟩

/-- The same without the saved trail. -/
theorem PStep.inv' {db s db' s'} (h : PStep db s db' s') (hw : db.WF) (hi : Stk.Inv db s) : Stk.Inv db' s' := by
  cases h with
  | drop l todo h ht => exact hi.congr rfl rfl rfl rfl rfl hi.qh (fun _ _ _ h _ => h) (fun _ _ h => h)
  | restore l idx op =>
    have hs : Stk.Inv db { s with saved := [] } := hi.congr rfl rfl rfl rfl rfl hi.qh (fun _ _ _ h _ => h) (fun _ _ h => h)
    have := ((PStep.restore (s := { s with saved := [] }) l idx op).inv hw hs (Stk.savedOK_nil rfl)).1
    exact this.congr rfl rfl rfl rfl rfl this.qh (fun _ _ _ h _ => h) (fun _ _ h => h)
  | move p idx cid old k sf b lk other hii ho ha hb h2 hk hss hp ht hf =>
    have hs : Stk.Inv db { s with saved := [] } := hi.congr rfl rfl rfl rfl rfl hi.qh (fun _ _ _ h _ => h) (fun _ _ h => h)
    have := ((PStep.move (s := { s with saved := [] }) p idx cid old k sf b lk other hii ho ha hb h2 hk hss hp ht hf).inv hw hs
      (Stk.savedOK_nil rfl)).1
    exact this.congr rfl rfl rfl rfl rfl this.qh (fun _ _ _ h _ => h) (fun _ _ h => h)
  | swap cid l0 l1 l2 tl hl h0 =>
    have hs : Stk.Inv db { s with saved := [] } := hi.congr rfl rfl rfl rfl rfl hi.qh (fun _ _ _ h _ => h) (fun _ _ h => h)
    have := ((PStep.swap (s := { s with saved := [] }) cid l0 l1 l2 tl hl h0).inv hw hs (Stk.savedOK_nil rfl)).1
    exact this.congr rfl rfl rfl rfl rfl this.qh (fun _ _ _ h _ => h) (fun _ _ h => h)
  | imply l r hn hr => exact hi.assignImpl hn hr
  | advance h => exact hi.congr rfl rfl rfl rfl rfl h (fun _ _ _ h _ => h) (fun _ _ h => h)
  | heap => exact hi.congr rfl rfl rfl rfl rfl hi.qh (fun _ _ _ h _ => h) (fun _ _ h => h)
  | clear => exact hi.clearSaved

/-- The invariants along a whole propagation. -/
structure PInv (db : Cdb) (s : Stk) : Prop where
  wf : db.WF
  inv : Stk.Inv db s
  saved : Stk.SavedOK db s

/-- The invariants at the root level, where the saved trail may be stale. -/
structure RInv (db : Cdb) (s : Stk) : Prop where
  wf : db.WF
  inv : Stk.Inv db s

theorem PInv.rinv {db : Cdb} {s : Stk} (h : PInv db s) : RInv db s := ⟨h.wf, h.inv⟩

/-- An invariant of propagation steps. -/
structure PK (K : Cdb → Stk → Prop) : Prop where
  wf : ∀ {db s}, K db s → db.WF
  inv : ∀ {db s}, K db s → Stk.Inv db s
  step : ∀ {db s db' s'}, K db s → PStep db s db' s' → K db' s'

theorem PK.pinv : PK PInv :=
  ⟨PInv.wf, PInv.inv, fun h st => ⟨(st.db h.wf).1, (st.inv h.wf h.inv h.saved).1, (st.inv h.wf h.inv h.saved).2⟩⟩

theorem PK.rinv : PK RInv := ⟨RInv.wf, RInv.inv, fun h st => ⟨(st.db h.wf).1, st.inv' h.wf h.inv⟩⟩

theorem PSteps.allK {K : Cdb → Stk → Prop} (hK : PK K) {db s db' s'} (h : PSteps db s db' s') (hi : K db s) :
    K db' s' ∧ Cdb.Same db db' ∧ Stk.Ext s s' := by
  induction h with
  | refl => exact ⟨hi, .refl _, .refl _⟩
  | cons h _ ih =>
    obtain ⟨w, sm⟩ := h.db (hK.wf hi)
    obtain ⟨j1, j2, j3⟩ := ih (hK.step hi h)
    exact ⟨j1, sm.trans j2, h.ext.trans j3⟩

theorem PSteps.all {db s db' s'} (h : PSteps db s db' s') (hi : PInv db s) : PInv db' s' ∧ Cdb.Same db db' ∧ Stk.Ext s s' :=
  h.allK PK.pinv hi

theorem PSteps.allR {db s db' s'} (h : PSteps db s db' s') (hi : RInv db s) : RInv db' s' ∧ Cdb.Same db db' ∧ Stk.Ext s s' :=
  h.allK PK.rinv hi

end Splr
