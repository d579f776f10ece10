import Verif.Lemmas.WatchComplete
import Verif.Lemmas.VivSpec
/-! The condition on watched literals is kept by everything that happens at the root level. -/
namespace Splr
open Stk

theorem Res.bind_ok {α β : Type} {r : Res α} {f : α → Res β} {y : β} (h : r.bind f = .ok y) : ∃ a, r = .ok a ∧ f a = .ok y := by
  cases r with
  | ok a => exact ⟨a, rfl, h⟩
  | _ => simp [Res.bind] at h

/-! ## backtracking -/

theorem Wt.cut {Z : Lit → Prop} {db : Cdb} {s s' : Stk} {lv k : Nat} (hi : Inv db s) (h : Wt (fun _ w => Z w ∨ s.dl ≤ s.level w.var) db s) (c : Cut s s' lv k)
    (hq : s'.qhead = k) : Wt (fun _ w => Z w) db s' := by
  have hkq : k ≤ s.qhead := h.cur k (List.mem_of_getElem? c.hk)
  have hlv : lv < s.dl := (List.getElem?_eq_some_iff.1 c.hk).1
  have keep : ∀ m, s.tr m → s.level m.var ≤ lv → s'.tr m := by
    intro m hm hl
    unfold Stk.tr; rw [Cut.assign_iff hi c, if_pos hl]; exact hm
  have low : ∀ m, s'.tr m → s.level m.var ≤ lv := by
    intro m hm
    have := tr_assigned hm
    rw [Cut.assign_iff hi c] at this
    by_contra hc
    rw [if_neg hc] at this; exact this rfl
  refine ⟨fun p i b hb => (h.cache p i b hb).imp id fun hr => ⟨keep _ hr.1 (by rw [hr.2]; omega), by rw [c.le]; exact hr.2⟩, ?_, ?_⟩
  · intro k' hk'
    rw [c.lm] at hk'
    obtain ⟨j, hj, e⟩ := List.mem_iff_getElem.1 hk'
    rw [List.getElem_take] at e
    simp at hj
    obtain ⟨pk, ek⟩ := List.getElem?_eq_some_iff.1 c.hk
    have := List.pairwise_iff_getElem.1 hi.limInc j lv hj.2 pk hj.1
    omega
  · intro i w hw ⟨d1, d2⟩ hz
    have hl := low _ d1
    have hdone : Done s w.neg := by
      refine ⟨c.tr_old d1, fun hm => ?_⟩
      have : w.neg ∈ s.trail.drop k := by
        have e : s.trail.drop s.qhead = (s.trail.drop k).drop (s.qhead - k) := by rw [List.drop_drop]; congr 1; omega
        rw [e] at hm; exact List.mem_of_mem_drop hm
      exact (c.keep (tr_assigned d1)).1 (List.mem_map_of_mem this)
    rw [Lit.neg_var] at hl
    obtain ⟨t, t1, t2, t3⟩ := h.wat i w hw hdone (by rintro (h | h); exacts [hz h, by omega])
    exact ⟨t, t1, keep t t2 (by omega), by rw [c.le]; exact t3⟩

theorem Wt.cancelUntil {Z : Lit → Prop} {db : Cdb} {s : Stk} (hi : Inv db s) (low : Nat → Bool) {lv : Nat} (hlv : lv < s.dl)
    (h : Wt (fun _ w => Z w ∨ s.dl ≤ s.level w.var) db s) : Wt (fun _ w => Z w) db (s.cancelUntil low lv) := by
  obtain ⟨c, e⟩ := cancelUntil_cut (low := low) hlv
  refine h.cut hi c ?_
  have := h.cur _ (List.mem_of_getElem? c.hk)
  rw [e]; omega

/-- Backtracking when there is nothing to be made up for. -/
theorem Wt.cancelUntil' {Z : Lit → Prop} {db : Cdb} {s : Stk} (hi : Inv db s) (low : Nat → Bool) (lv : Nat) (h : Wt (fun _ w => Z w) db s) : Wt (fun _ w => Z w) db (s.cancelUntil low lv) := by
  by_cases hlv : lv < s.dl
  · exact Wt.cancelUntil hi low hlv (h.mono fun _ _ h => .inl h)
  · rw [cancelUntil_noop (by omega)]; exact h

theorem Wt.backtrackSandbox {Z : Lit → Prop} {db : Cdb} {s : Stk} (hi : Inv db s) (hl : s.lim ≠ []) (h : Wt (fun _ w => Z w ∨ s.dl ≤ s.level w.var) db s) :
    Wt (fun _ w => Z w) db s.backtrackSandbox := by
  obtain ⟨c, e⟩ := backtrackSandbox_cut hl
  refine h.cut hi c ?_
  have := hi.limLt _ (List.mem_of_getElem? c.hk)
  rw [e, List.length_take]; omega

theorem Wt.backtrackSandbox' {Z : Lit → Prop} {db : Cdb} {s : Stk} (hi : Inv db s) (h : Wt (fun _ w => Z w) db s) : Wt (fun _ w => Z w) db s.backtrackSandbox := by
  by_cases hl : s.lim = []
  · have : s.backtrackSandbox = s := by simp [Stk.backtrackSandbox, hl]
    rw [this]; exact h
  · exact Wt.backtrackSandbox hi hl (h.mono fun _ _ h => .inl h)

/-! ## changes of the database -/

/-- One clause changes. -/
theorem Wt.one {Z : Lit → Prop} {E : Nat → Lit → Prop} {db db' : Cdb} {s : Stk} {cid : Nat} (h : Wt (fun _ w => Z w) db s) (hE : ∀ i w, Z w → E i w) (hk : ∀ i, i ≠ cid → (db'.clause i).lits = (db.clause i).lits)
    (hf : Cdb.Fresh db db') (hc : ∀ b ∈ (db.clause cid).lits, b ∈ (db'.clause cid).lits ∨ Root s b.neg ∨ ∀ m, (cid, b) ∉ db'.watch m)
    (hw : ∀ w, W2 (db'.clause cid).lits w → Done s w.neg → ¬ E cid w → ∃ t ∈ (db'.clause cid).lits, s.tr t ∧ s.level t.var ≤ s.level w.var) : Wt E db' s := by
  refine ⟨fun p i b hb => ?_, h.cur, fun i w h1 h2 h3 => ?_⟩
  · rcases hf p i b hb with ho | ho
    · by_cases e : i = cid
      · subst e
        rcases h.cache p i b ho with h1 | h1
        · rcases hc b h1 with h1 | h1 | h1
          · exact .inl h1
          · exact .inr h1
          · exact absurd hb (h1 p)
        · exact .inr h1
      · rw [hk i e]; exact h.cache p i b ho
    · exact .inl ho
  · by_cases e : i = cid
    · subst e; exact hw w h1 h2 h3
    · rw [hk i e] at h1 ⊢; exact h.wat i w h1 h2 (fun h => h3 (hE i w h))

/-- No clause changes, and no watch list. -/
theorem Wt.dbEq {E : Nat → Lit → Prop} {db db' : Cdb} {s : Stk} (h : Wt E db s) (hk : ∀ i, (db'.clause i).lits = (db.clause i).lits)
    (hw : db'.watch = db.watch) : Wt E db' s :=
  h.ofDb (fun i x => by rw [hk]) (fun p i b hb => by rw [hw] at hb; exact .inl hb) fun i w h1 _ h3 => .inl ⟨by rw [hk] at h1; exact h1, h3⟩

theorem Wt.log {E : Nat → Lit → Prop} {db : Cdb} {s : Stk} (h : Wt E db s) (r : CertRec) : Wt E (db.log r) s := h.dbEq (fun _ => rfl) rfl

theorem Wt.remove {Z : Lit → Prop} {db db' : Cdb} {s : Stk} {cid : Nat} (hw : db.WF) (h : Wt (fun _ w => Z w) db s) (e : db.removeClause cid = some db') : Wt (fun _ w => Z w) db' s := by
  obtain ⟨w, -, hc, -, -⟩ := Cdb.removeClause_spec hw e
  have h0 : (db'.clause cid).lits = [] := by rw [hc]; simp
  refine h.one (cid := cid) (fun _ _ h => h) (fun i hi => by rw [hc, upd_of_ne _ _ hi]) (Cdb.fresh_removeClause e) (fun b _ => .inr (.inr fun m hm => ?_)) fun w hw => ?_
  · have := ((w.wIff m cid).1 ⟨b, hm⟩).1
    rw [h0] at this; simp at this
  · rw [h0] at hw; rcases hw with hw | hw <;> simp at hw

/-- A new clause; `E`: its watched literals that have been propagated as false. -/
theorem Wt.add {Z : Lit → Prop} {E : Nat → Lit → Prop} {db db' : Cdb} {s : Stk} {vec : Cls} {learnt : Bool} {lvl : Nat → Nat} {rf : RefClause} (hw : db.WF)
    (hnd : (vec.map Lit.var).Nodup) (h : Wt (fun _ w => Z w) db s) (hE : ∀ i w, Z w → E i w) (e : db.newClause lvl vec learnt = some (db', rf))
    (hv : ∀ i, rf = .clause i → ∀ w, W2 vec w → Done s w.neg → ¬ E i w → ∃ t ∈ vec, s.tr t ∧ s.level t.var ≤ s.level w.var) : Wt E db' s := by
  obtain ⟨w, hs⟩ := Cdb.newClause_spec hw hnd e
  rcases hs with ⟨cid, a, b, hr, rfl, rfl, hc⟩ | ⟨cid, c, hr, h0, hlt, hold, hcl, h2, hsf, hlr, hbl, hcc, hcert⟩
  · exact h.mono hE
  · have hcid : (db'.clause cid).lits = vec := by rw [hcc]; simp [hcl]
    refine h.one (cid := cid) hE (fun i hi => by rw [hcc, upd_of_ne _ _ hi]) (Cdb.fresh_newClause hw hnd e) (by rw [hold]; simp) ?_
    rw [hcid]; exact hv cid hr

/-! ## the root level -/

theorem Wt.assignRootRes {Z : Lit → Prop} {db : Cdb} {s : Stk} {l : Lit} {y : DS} (hi : Inv db s) (hl : s.lim = []) (h : Wt (fun _ w => Z w) db s) {db0 : Cdb}
    (hk : ∀ i, (db0.clause i).lits = (db.clause i).lits) (hw : db0.watch = db.watch)
    (e : s.assignRootRes db0 l = .ok y) : y.1 = db0 ∧ Wt (fun _ w => Z w) y.1 y.2 := by
  have hc0 : s.cancelUntil noLow 0 = s := cancelUntil_noop (by unfold Stk.dl; rw [hl]; simp)
  unfold Stk.assignRootRes Stk.assignRoot at e
  simp only [hc0] at e
  cases ha : s.assign l.var with
  | none =>
    rw [ha] at e
    simp only [Res.ok.injEq] at e
    subst e
    refine ⟨rfl, (h.dbEq hk hw).push hi.qh ha rfl rfl rfl rfl (by intro k hk; have hk : k ∈ s.lim := hk; rw [hl] at hk; simp at hk)⟩
  | some v =>
    rw [ha] at e
    simp only [] at e
    have hlv : upd s.level l.var 0 = s.level := by
      funext v'; simp only [upd_apply]; split
      · rename_i e'; subst e'; rw [hi.level_root hl (by rw [ha]; simp)]
      · rfl
    split at e
    · rename_i s1 heq
      simp only [Prod.mk.injEq] at heq
      cases e
      refine ⟨rfl, ?_⟩
      rw [← heq.1]
      exact (h.dbEq hk hw).stkEq rfl hlv rfl rfl rfl
    · simp at e

/-- What holds in the states of preprocessing and inprocessing. -/
structure KW (Z : Lit → Prop) (x : DS) : Prop where
  rinv : RInv x.1 x.2
  dom : Dom x.1 x.2
  wt : Wt (fun _ w => Z w) x.1 x.2

theorem KW.ofRG {Z : Lit → Prop} {k r : Bool} {x y : DS} {Q : DS → Prop} {res : Res DS} (h : KW Z x) (hg : RG k r x.1 x.2 id Q res) (e : res = .ok y) (hw : Wt (fun _ w => Z w) y.1 y.2) :
    KW Z y ∧ Q y := by
  subst e
  exact ⟨⟨hg.1.rinv, hg.1.dom h.dom, hw⟩, hg.2⟩

theorem kw_propagate {Z : Lit → Prop} {x y : DS} (h : KW Z x) (hl : x.2.lim = []) (e : (propagateSandbox x.1 x.2).toRes = .ok y) : KW Z y ∧ y.2.lim = [] := by
  refine h.ofRG (rg_propagate (k := true) (r := true) h.rinv hl) e ?_
  have hw := propagateSandbox_wtB h.rinv h.wt
  cases hp : propagateSandbox x.1 x.2 with
  | ok db s => rw [hp] at e hw; cases e; exact hw
  | _ => rw [hp] at e; simp [PRes.toRes] at e

/-- Propagation leaves nothing to be propagated. -/
theorem propagate_remains {x y : DS} (hi : RInv x.1 x.2) (e : (propagateSandbox x.1 x.2).toRes = .ok y) : y.2.remains = false := by
  cases hp : propagateSandbox x.1 x.2 with
  | ok db s =>
    rw [hp] at e; cases e
    have := (propagateSandbox_complete hi hp).2.2
    simp [Stk.remains]; omega
  | _ => rw [hp] at e; simp [PRes.toRes] at e

theorem kw_propRemains {Z : Lit → Prop} {x y : DS} (h : KW Z x) (hl : x.2.lim = []) (e : propRemains x = .ok y) : KW Z y ∧ y.2.lim = [] ∧ y.2.remains = false := by
  unfold propRemains at e
  split at e
  · have := kw_propagate h hl e
    exact ⟨this.1, this.2, propagate_remains h.rinv e⟩
  · rename_i hr; cases e; exact ⟨h, hl, by simpa using hr⟩

theorem removeRes_ok {db : Cdb} {s : Stk} {cid : Nat} {y : DS} (e : db.removeRes s cid = .ok y) : db.removeClause cid = some y.1 ∧ y.2 = s := by
  unfold Cdb.removeRes at e
  split at e
  · simp at e
  · rename_i hr; cases e; exact ⟨hr, rfl⟩

theorem kw_simpOne {Z : Lit → Prop} {x y : DS} {cid : Nat} (h : KW Z x) (hl : x.2.lim = []) (e : simpOne x cid = .ok y) : KW Z y ∧ y.2.lim = [] := by
  refine h.ofRG (rg_simpOne (r := true) h.rinv hl h.dom) e ?_
  obtain ⟨db, s⟩ := x
  obtain ⟨hi, hd, hw⟩ := h
  simp only [] at hi hd hw hl
  unfold simpOne at e
  simp only [] at e
  split at e
  · cases e; exact hw
  rename_i hdead
  have hne : (db.clause cid).lits ≠ [] := by simpa [Cl.dead] using hdead
  obtain ⟨db', rf, e', w, out, hk, -⟩ := Cdb.transformBySimplification_spec (asg := s.assign) (elim := s.elim) hi.wf hne
  rw [e'] at e
  have hfr := Cdb.fresh_simplify e'
  have gone : (db'.clause cid).lits = [] → Wt (fun _ w => Z w) db' s := by
    intro h0
    refine hw.one (cid := cid) (fun _ _ h => h) (fun i hi => by rw [hk i hi]) hfr (fun b _ => .inr (.inr fun m hm => ?_)) fun w hw => ?_
    · have := ((w.wIff m cid).1 ⟨b, hm⟩).1
      rw [h0] at this; simp at this
    · rw [h0] at hw; rcases hw with hw | hw <;> simp at hw
  cases out with
  | dead h1 h' hc => cases e; exact gone h'
  | same h' => cases e; subst h'; exact hw
  | empty h1 h' => simp at e
  | unit l h1 h' =>
    subst h'
    simp only [] at e
    obtain ⟨a, e1, e2⟩ := Res.bind_ok e
    obtain ⟨b1, b2⟩ := removeRes_ok e2
    obtain ⟨c1, c2⟩ := hw.assignRootRes hi.inv hl (db0 := db'.log _) (fun _ => rfl) rfl e1
    rw [b2]
    refine c2.remove ?_ b1
    rw [c1]; exact Cdb.wf_lits hi.wf (fun _ => ⟨rfl, rfl⟩) rfl rfl rfl rfl rfl
  | registered bid a b h1 hb hr h' hc => cases e; exact gone h'
  | shorter h1 hh hlt hlr hc =>
    cases e
    simp only []
    have ht : ∀ l ∈ (db.clause cid).lits, ¬ s.tr l := by
      intro l hm ht
      unfold Cdb.transformBySimplification at e'
      rw [if_pos (by rw [List.any_eq_true]; exact ⟨l, hm, by simp [litVal_true.2 ht]⟩)] at e'
      cases hr : db.removeClause cid with
      | none => rw [hr] at e'; simp at e'
      | some d => rw [hr] at e'; simp at e'
    refine hw.one (cid := cid) (fun _ _ h => h) (fun i hi => by rw [hk i hi]) hfr (fun b hb => ?_) fun w hw' hd' => ?_
    · rcases tr_cases s b with h | h | h
      · exact absurd h (ht b hb)
      · exact .inr (.inl ⟨h, hi.inv.level_root hl (tr_assigned h)⟩)
      · left; rw [hh, List.mem_filter]; refine ⟨hb, ?_⟩
        simp [litVal_none.2 h, (hd.cl cid b hb).2.2]
    · exfalso
      have : w ∈ (db'.clause cid).lits := hw'.elim List.mem_of_getElem? List.mem_of_getElem?
      rw [hh, List.mem_filter] at this
      simp only [Bool.and_eq_true, beq_iff_eq] at this
      have hn := litVal_none.1 this.2.1
      exact tr_assigned hd'.1 (by rw [Lit.neg_var]; exact hn)

theorem kw_simpPass {Z : Lit → Prop} : ∀ {cids : List Nat} {x y : DS}, KW Z x → x.2.lim = [] → simpPass cids x = .ok y → KW Z y ∧ y.2.lim = []
  | [], x, y, h, hl, e => by unfold simpPass at e; cases e; exact ⟨h, hl⟩
  | cid :: cids, x, y, h, hl, e => by
    unfold simpPass at e
    obtain ⟨a, e1, e2⟩ := Res.bind_ok e
    have ha := kw_simpOne h hl e1
    exact kw_simpPass ha.1 ha.2 e2

theorem kw_rootLoop {Z : Lit → Prop} : ∀ {n np : Nat} {x y : DS}, KW Z x → x.2.lim = [] → rootLoop n np x = .ok y → KW Z y ∧ y.2.lim = []
  | 0, _, _, _, _, _, e => by simp [rootLoop] at e
  | n + 1, np, x, y, h, hl, e => by
    unfold rootLoop at e
    split at e
    · obtain ⟨a, e1, e2⟩ := Res.bind_ok e
      have ha := kw_simpPass h hl e1
      exact kw_rootLoop ha.1 ha.2 e2
    · cases e; exact ⟨h, hl⟩

theorem kw_clearLoop {Z : Lit → Prop} : ∀ {n : Nat} {x y : DS}, KW Z x → x.2.lim = [] → clearLoop n x = .ok y → KW Z y ∧ y.2.lim = [] ∧ y.2.remains = false
  | 0, _, _, _, _, e => by simp [clearLoop] at e
  | n + 1, x, y, h, hl, e => by
    unfold clearLoop at e
    obtain ⟨a, e1, e2⟩ := Res.bind_ok e
    obtain ⟨b, e3, e4⟩ := Res.bind_ok e2
    have ha := kw_propRemains h hl e1
    have hb := kw_rootLoop ha.1 ha.2.1 e3
    split at e4
    · obtain ⟨c, e5, e6⟩ := Res.bind_ok e4
      have hc := kw_propagate hb.1 hb.2 e5
      exact kw_clearLoop hc.1 hc.2 e6
    · rename_i hr; cases e4; exact ⟨hb.1, hb.2, by simpa using hr⟩

theorem kw_clearAsserted {Z : Lit → Prop} {x y : DS} (h : KW Z x) (hl : x.2.lim = []) (e : clearAsserted x = .ok y) : KW Z y ∧ y.2.lim = [] := by
  refine h.ofRG (rg_clearAsserted (r := true) h.rinv hl h.dom) e ?_
  unfold clearAsserted at e
  obtain ⟨a, e1, e2⟩ := Res.bind_ok e
  obtain ⟨ha, hla, hra⟩ := kw_clearLoop h hl e1
  cases e2
  refine ⟨ha.wt.cache, ?_, fun i w h1 h2 h3 => ha.wt.wat i w h1 ⟨h2.1, ?_⟩ h3⟩
  · intro k hk
    rw [show (a.1, a.2.archive).2.lim = a.2.lim from rfl, hla] at hk; simp at hk
  · have : a.2.trail.length ≤ a.2.qhead := by simpa [Stk.remains] using hra
    rw [List.drop_eq_nil_of_le this]; simp

/-! ## vivification -/

theorem Wt.assignDecision {Z : Lit → Prop} {db : Cdb} {s : Stk} (hi : Inv db s) (h : Wt (fun _ w => Z w) db s) (hr : s.remains = false) {l : Lit} (hn : s.assign l.var = none) :
    Wt (fun _ w => Z w) db (s.assignDecision l) := by
  have hq : s.trail.length ≤ s.qhead := by simpa [Stk.remains] using hr
  refine h.push hi.qh hn rfl rfl rfl rfl fun k hk => ?_
  have hk : k ∈ s.lim ++ [s.trail.length] := hk
  rcases List.mem_append.1 hk with hk | hk
  · exact h.cur k hk
  · simp at hk; omega

/-- What the tentative decisions on the literals of a clause lead to. -/
def VDec.Wt (Z : Lit → Prop) : VDec → Prop
  | .done db s => Splr.Wt (fun _ w => Z w) db s
  | .conflict db s decs _ _ => Splr.Wt (fun _ w => Z w ∨ s.dl ≤ s.level w.var) db s ∧ (∀ x ∈ decs, s.tr x ∧ 0 < s.level x.var)
  | _ => True

theorem vivDecide_wt {Z : Lit → Prop} : ∀ {ls : Cls} {decs : List Lit} {db : Cdb} {s : Stk}, RInv db s → Splr.Wt (fun _ w => Z w) db s → s.remains = false →
    (∀ x ∈ decs, s.tr x ∧ 0 < s.level x.var) → (vivDecide ls decs db s).Wt Z
  | [], decs, db, s, hi, h, hr, hd => h
  | l :: ls, decs, db, s, hi, h, hr, hd => by
    unfold vivDecide
    cases hv : s.val l with
    | some b =>
      cases b with
      | true => exact vivDecide_wt hi h hr hd
      | false => exact h
    | none =>
      have hn : s.assign l.neg.var = none := by rw [Lit.neg_var]; exact val_none.1 hv
      have hi1 : RInv db (s.assignDecision l.neg) := ⟨hi.wf, hi.inv.assignDecision hn⟩
      have hw := propagateSandbox_wtB hi1 (h.assignDecision hi.inv hr hn)
      have hg := propagateSandbox_good hi1
      have hd1 : ∀ x ∈ decs ++ [l.neg], (s.assignDecision l.neg).tr x ∧ 0 < (s.assignDecision l.neg).level x.var := by
        intro x hx
        rcases List.mem_append.1 hx with hx | hx
        · have hne : x.var ≠ l.neg.var := fun e => tr_assigned (hd x hx).1 (by rw [e]; exact hn)
          refine ⟨tr_upd hn rfl (hd x hx).1, ?_⟩
          show 0 < upd s.level l.neg.var (s.dl + 1) x.var
          rw [upd_of_ne _ _ hne]; exact (hd x hx).2
        · simp at hx; subst hx
          refine ⟨?_, ?_⟩
          · show upd s.assign l.neg.var (some l.neg.pos) l.neg.var = _; simp
          · show 0 < upd s.level l.neg.var (s.dl + 1) l.neg.var; simp
      have hd2 : ∀ {s1 : Stk}, Stk.Ext (s.assignDecision l.neg) s1 → ∀ x ∈ decs ++ [l.neg], s1.tr x ∧ 0 < s1.level x.var := by
        intro s1 hx x hm
        refine ⟨hx.tr _ (hd1 x hm).1, ?_⟩
        rw [hx.level _ (tr_assigned (hd1 x hm).1)]; exact (hd1 x hm).2
      simp only []
      cases hp : propagateSandbox db (s.assignDecision l.neg) with
      | ok db1 s1 =>
        have hq := (propagateSandbox_complete hi1 hp).2.2
        rw [hp] at hg hw
        have hx := hg.allR hi1
        exact vivDecide_wt hx.1 hw (by simp [Stk.remains]; omega) (hd2 hx.2.2)
      | conflict db1 s1 cl rs =>
        rw [hp] at hg hw
        have hx := hg.1.allR hi1
        exact ⟨hw, hd2 hx.2.2⟩
      | panic => trivial
      | fuel => trivial

theorem kw_vivOne {Z : Lit → Prop} {x y : DS} {cid : Nat} (h : KW Z x) (e : vivOne x cid = .ok y) : KW Z y := by
  have hg := rg_vivOne (r := true) (cid := cid) h.rinv h.dom
  refine (h.ofRG hg e ?_).1
  unfold vivOne at e
  have t0 : Tr true true x.1 x.2 x.1 x.2.backtrackSandbox := Tr.backtrackSandbox h.rinv
  have h0 : KW Z (x.1, x.2.backtrackSandbox) := ⟨t0.rinv, t0.dom h.dom, h.wt.backtrackSandbox' h.rinv.inv⟩
  obtain ⟨z, e1, e2⟩ := Res.bind_ok e
  obtain ⟨hz, hlz, hrz⟩ := kw_propRemains h0 (backtrackSandbox_lim _) e1
  split at e2
  · cases e2; exact hz.wt
  have hw := vivDecide_wt (ls := (z.1.clause cid).lits) (decs := []) hz.rinv hz.wt hrz (by simp)
  have hdec0 : DecIn z.2 [] := by
    intro l hl h1; have := hz.rinv.inv.level_root hlz (tr_assigned (hz.rinv.inv.tv l hl)); omega
  have hgd := vivDecide_good (k := true) (r := true) (c := (z.1.clause cid).lits) (ls := (z.1.clause cid).lits) (fun _ h => h) hz.rinv hdec0
    (by simp) (fun x hx => hz.dom.cl cid x hx)
  split at e2
  · rename_i db s hv
    rw [hv] at hw
    cases e2; exact hw
  · simp at e2
  · simp at e2
  · rename_i db s decs l rs hv
    rw [hv] at hw hgd
    obtain ⟨w1, w2⟩ := hw
    obtain ⟨t1, hco, hde, hdc, hlim⟩ := hgd
    have hb : Splr.Wt (fun _ w => Z w) db s.backtrackSandbox := w1.backtrackSandbox t1.rinv.inv hlim
    have hbi : RInv db s.backtrackSandbox := (Tr.backtrackSandbox (k := true) (r := true) t1.rinv).rinv
    split at e2
    · simp at e2
    · cases e2; exact hb
    · rename_i conf hcf
      split at e2
      · simp at e2
      · rename_i vec hvec
        obtain ⟨a2, s2⟩ := sweep_sub hvec
        have a3 : (vec.map Lit.var).Nodup := by
          refine s2.nodup ?_
          rw [List.map_reverse, List.nodup_reverse]
          exact t1.rinv.inv.nd.sublist ((List.drop_sublist _ _).map _)
        unfold vivApply at e2
        split at e2
        · simp at e2
        · exact (hb.assignRootRes hbi.inv (backtrackSandbox_lim _) (db0 := db.log _) (fun _ => rfl) rfl e2).2
        · split at e2
          · simp at e2
          · rename_i db1 rf hn
            obtain ⟨b1, b2⟩ := removeRes_ok e2
            have hun : ∀ x ∈ vec, s.backtrackSandbox.assign x.var = none := by
              intro x hx
              have := w2 _ (a2 x hx)
              rw [Cut.assign_iff t1.rinv.inv (backtrackSandbox_cut hlim).1, if_neg]
              rw [← Lit.neg_var]; omega
            have hadd : Splr.Wt (fun _ w => Z w) db1 s.backtrackSandbox := Wt.add hbi.wf a3 hb (fun _ _ h => h) hn fun i _ w hw hd => by
              exfalso
              exact tr_assigned hd.1 (by rw [Lit.neg_var]; exact hun w (hw.elim List.mem_of_getElem? List.mem_of_getElem?))
            rw [b2]
            exact hadd.remove (Cdb.newClause_spec hbi.wf a3 hn).1 b1

theorem kw_vivLoop {Z : Lit → Prop} : ∀ {cids : List Nat} {x y : DS}, KW Z x → vivLoop cids x = .ok y → KW Z y
  | [], x, y, h, e => by unfold vivLoop at e; cases e; exact h
  | cid :: cids, x, y, h, e => by
    unfold vivLoop at e
    obtain ⟨a, e1, e2⟩ := Res.bind_ok e
    exact kw_vivLoop (kw_vivOne h e1) e2

theorem kw_vivify {Z : Lit → Prop} {targets : List Nat} {x y : DS} (h : KW Z x) (hl : x.2.lim = []) (e : vivify targets x = .ok y) : KW Z y ∧ y.2.lim = [] := by
  unfold vivify at e
  obtain ⟨a, e1, e2⟩ := Res.bind_ok e
  have ha := kw_propRemains h hl e1
  split at e2
  · cases e2; exact ⟨ha.1, ha.2.1⟩
  · obtain ⟨b, e3, e4⟩ := Res.bind_ok e2
    obtain ⟨c, e5, e6⟩ := Res.bind_ok e4
    have hb := kw_vivLoop ha.1 e3
    have t0 : Tr true true b.1 b.2 b.1 b.2.backtrackSandbox := Tr.backtrackSandbox hb.rinv
    have h0 : KW Z (b.1, b.2.backtrackSandbox) := ⟨t0.rinv, t0.dom hb.dom, hb.wt.backtrackSandbox' hb.rinv.inv⟩
    have hc := kw_propRemains h0 (backtrackSandbox_lim _) e5
    exact kw_clearAsserted hc.1 hc.2.1 e6

end Splr
