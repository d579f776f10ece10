import Verif.Lemmas.Propagate
/-! Binary clauses are propagated completely. -/
namespace Splr
open Stk

/-- The property holds of the state of a result. -/
def PRes.All (P : Cdb → Stk → Prop) : PRes → Prop
  | .ok db s => P db s
  | .conflict db s _ _ => P db s
  | _ => True

theorem PRes.All.mono {P Q : Cdb → Stk → Prop} {r : PRes} (h : r.All P) (hq : ∀ db s, P db s → Q db s) : r.All Q := by
  cases r <;> first | exact hq _ _ h | trivial

theorem assignImpl_qhead (s : Stk) (l : Lit) (r : Reason) (lv : Nat) : (s.assignImpl l r lv).qhead = s.qhead := (assignImpl_fields s l r lv).2.2.2.2.2.1

theorem binLoop_qhead {p : Lit} {db : Cdb} : ∀ {bs : List (Lit × Nat)} {s : Stk}, (binLoop p db bs s).All fun db' s' => db' = db ∧ s'.qhead = s.qhead
  | [], s => ⟨rfl, rfl⟩
  | (b, c) :: bs, s => by
    unfold binLoop
    split
    · exact binLoop_qhead
    · exact ⟨rfl, rfl⟩
    · exact binLoop_qhead.mono fun _ _ h => ⟨h.1, h.2.trans (assignImpl_qhead ..)⟩

theorem moveWatch_blist (db : Cdb) (p : Lit) (idx cid old k sf : Nat) : (db.moveWatch p idx cid old k sf).blist = db.blist := by
  unfold Cdb.moveWatch; simp only []; split <;> rfl

theorem swapWatch_blist (db : Cdb) (cid : Nat) : (db.swapWatch cid).blist = db.blist := rfl

theorem watchLoop_qhead {sb : Bool} {p : Lit} : ∀ {n idx : Nat} {db : Cdb} {s : Stk},
    (watchLoop sb p n idx db s).All fun db' s' => db'.blist = db.blist ∧ s'.qhead = s.qhead
  | 0, idx, db, s => ⟨rfl, rfl⟩
  | n + 1, idx, db, s => by
    have hr := fun (d : Cdb) op => (Cdb.same_restoreWatch d p idx op).2.2.2
    unfold watchLoop
    split
    · trivial
    split
    · exact watchLoop_qhead
    split
    · exact watchLoop_qhead
    split
    · rename_i cid cached _ _ _ _ l0 l1 tl hl
      simp only []
      generalize (if p.neg = l1 then (1 : Nat) else 0) = pos
      generalize (if p.neg = l1 then l0 else l1) = other
      split
      · exact watchLoop_qhead.mono fun _ _ h => ⟨h.1.trans (hr _ _), h.2⟩
      split
      · trivial
      split
      · split
        · trivial
        · exact watchLoop_qhead.mono fun _ _ h => ⟨h.1.trans (moveWatch_blist ..), h.2⟩
      · have hb : ∀ op, ((if pos = 0 then db.swapWatch cid else db).restoreWatch p idx op).blist = db.blist := by
          intro op; rw [hr]; split <;> rfl
        split
        · exact ⟨hb _, rfl⟩
        · exact watchLoop_qhead.mono fun _ _ h => ⟨h.1.trans (hb _), h.2.trans (assignImpl_qhead ..)⟩
    · trivial

/-- After the loop over the binary clauses all implied literals are true. -/
theorem binLoop_complete {p : Lit} {db : Cdb} : ∀ {bs : List (Lit × Nat)} {s : Stk} {db' : Cdb} {s' : Stk}, binLoop p db bs s = .ok db' s' →
    (∀ l, s.tr l → s'.tr l) ∧ ∀ e ∈ bs, s'.tr e.1
  | [], s, db', s', h => by unfold binLoop at h; cases h; exact ⟨fun _ h => h, by simp⟩
  | (b, c) :: bs, s, db', s', h => by
    unfold binLoop at h
    cases hv : s.val b with
    | none =>
      rw [hv] at h
      obtain ⟨i1, i2⟩ := binLoop_complete h
      have f1 := (assignImpl_fields s b (.binary p) s.dl).1
      have hb : (s.assignImpl b (.binary p) s.dl).tr b := by unfold tr; rw [f1]; simp
      refine ⟨fun l hl => i1 l (tr_upd (val_none.1 hv) f1 hl), fun e he => ?_⟩
      rcases List.mem_cons.1 he with rfl | he
      · exact i1 _ hb
      · exact i2 e he
    | some v =>
      cases v with
      | true =>
        rw [hv] at h
        obtain ⟨i1, i2⟩ := binLoop_complete h
        refine ⟨i1, fun e he => ?_⟩
        rcases List.mem_cons.1 he with rfl | he
        · exact i1 _ (val_true.1 hv)
        · exact i2 e he
      | false => rw [hv] at h; simp at h

theorem propLit_complete {K : Cdb → Stk → Prop} (hK : PK K) {sb : Bool} {p : Lit} {db : Cdb} {s : Stk} (hi : K db s) (hp : s.tr p)
    {db' : Cdb} {s' : Stk} (h : propLit sb p db s = .ok db' s') :
    s'.qhead = s.qhead ∧ db'.blist = db.blist ∧ ∀ e ∈ db.blist p.neg, s'.tr e.1 := by
  unfold propLit at h
  have hb := binLoop_good hK (p := p) (bs := db.blist p.neg) hi hp (fun x hx => by
    obtain ⟨b, c⟩ := x
    exact ⟨c, (((hK.wf hi).bIff p.neg b c).1 hx).symm⟩)
  have hq := binLoop_qhead (p := p) (db := db) (bs := db.blist p.neg) (s := s)
  cases hr : binLoop p db (db.blist p.neg) s with
  | ok db1 s1 =>
    rw [hr] at h hb hq
    simp only [] at h
    have hx := hb.allK hK hi
    have hw := watchLoop_good hK (sandbox := sb) hx.1 (hx.2.2.tr p hp) (n := (db1.watch p).length) (idx := 0) (by simp)
    have hwq := watchLoop_qhead (sb := sb) (p := p) (n := (db1.watch p).length) (idx := 0) (db := db1) (s := s1)
    rw [h] at hw hwq
    refine ⟨hwq.2.trans hq.2, hwq.1.trans (by rw [hq.1]), fun e he => ?_⟩
    exact (hw.allK hK hx.1).2.2.tr _ ((binLoop_complete hr).2 e he)
  | conflict db1 s1 l r => rw [hr] at h; simp at h
  | panic => rw [hr] at h; simp at h
  | fuel => rw [hr] at h; simp at h

/-- Every literal propagated from `qhead` on has its binary clauses satisfied. -/
def BinDone (db : Cdb) (from_ : Nat) (s' : Stk) : Prop :=
  ∀ i p, from_ ≤ i → s'.trail[i]? = some p → ∀ e ∈ db.blist p.neg, s'.tr e.1

theorem getElem?_ext {s s' : Stk} (h : Stk.Ext s s') {i : Nat} {p : Lit} (hi : s.trail[i]? = some p) : s'.trail[i]? = some p := by
  obtain ⟨t, e⟩ := h.trail
  rw [e, List.getElem?_append_left (List.getElem?_eq_some_iff.1 hi).1]; exact hi

theorem propLoopSandbox_complete {K : Cdb → Stk → Prop} (hK : PK K) : ∀ {n : Nat} {db : Cdb} {s : Stk} {db' : Cdb} {s' : Stk}, K db s →
    propLoopSandbox n db s = .ok db' s' → db'.blist = db.blist ∧ BinDone db s.qhead s' ∧ s'.trail.length ≤ s'.qhead
  | 0, db, s, db', s', _, h => by simp [propLoopSandbox] at h
  | n + 1, db, s, db', s', hi, h => by
    unfold propLoopSandbox at h
    cases hg : s.trail[s.qhead]? with
    | none =>
      rw [hg] at h; cases h
      have hle : s.trail.length ≤ s.qhead := by simpa using hg
      refine ⟨rfl, fun i p hi hp => ?_, hle⟩
      have := (List.getElem?_eq_some_iff.1 hp).1; omega
    | some p =>
      rw [hg] at h; simp only [] at h
      have st := advance_step (db := db) hg
      have hx := st.allK hK hi
      have hp : ({ s with qhead := s.qhead + 1 } : Stk).tr p := (hK.inv hx.1).tv p (List.mem_of_getElem? hg)
      have hl := propLit_good hK (sandbox := true) hx.1 hp
      cases hr : propLit true p db { s with qhead := s.qhead + 1 } with
      | ok db1 s1 =>
        rw [hr] at hl h
        simp only [] at h
        have hy := hl.allK hK hx.1
        obtain ⟨q1, q2, q3⟩ := propLit_complete hK hx.1 hp hr
        obtain ⟨j1, j2, j3⟩ := propLoopSandbox_complete hK hy.1 h
        have hz := propLoopSandbox_good hK (n := n) hy.1
        rw [h] at hz
        have he := (hz.allK hK hy.1).2.2
        refine ⟨j1.trans q2, fun i p' hi' hp' e hm => ?_, j3⟩
        by_cases ei : i = s.qhead
        · subst ei
          have : s'.trail[s.qhead]? = some p := getElem?_ext he (getElem?_ext (hx.2.2.trans hy.2.2) hg)
          rw [this] at hp'; cases hp'
          exact he.tr _ (q3 e hm)
        · exact j2 i p' (by rw [q1]; simp only []; omega) hp' e (by rw [q2]; exact hm)
      | conflict db1 s1 l r => rw [hr] at h; simp at h
      | panic => rw [hr] at h; simp at h
      | fuel => rw [hr] at h; simp at h

theorem reuseLoop_qhead {db : Cdb} {q : Nat} : ∀ {todo : List Lit} {s : Stk}, (reuseLoop db q todo s).All fun db' s' => db' = db ∧ s'.qhead = s.qhead
  | [], s => ⟨rfl, rfl⟩
  | l :: todo, s => by
    unfold reuseLoop
    split
    · exact reuseLoop_qhead
    · exact reuseLoop_qhead.mono fun _ _ h => ⟨h.1, h.2.trans (assignImpl_qhead ..)⟩
    · split
      · exact ⟨rfl, rfl⟩
      · exact reuseLoop_qhead.mono fun _ _ h => ⟨h.1, h.2.trans (assignImpl_qhead ..)⟩
    · exact ⟨rfl, rfl⟩
    · split
      · exact ⟨rfl, rfl⟩
      · trivial
    · exact ⟨rfl, rfl⟩
    · trivial

theorem propLoop_complete {q : Nat} : ∀ {n : Nat} {db : Cdb} {s : Stk} {db' : Cdb} {s' : Stk}, PInv db s →
    propLoop q n db s = .ok db' s' → db'.blist = db.blist ∧ BinDone db s.qhead s' ∧ s'.trail.length ≤ s'.qhead
  | 0, db, s, db', s', _, h => by simp [propLoop] at h
  | n + 1, db, s, db', s', hi, h => by
    unfold propLoop at h
    cases hg : s.trail[s.qhead]? with
    | none =>
      rw [hg] at h; cases h
      have hle : s.trail.length ≤ s.qhead := by simpa using hg
      refine ⟨rfl, fun i p hi hp => ?_, hle⟩
      have := (List.getElem?_eq_some_iff.1 hp).1; omega
    | some p =>
      rw [hg] at h; simp only [] at h
      have st := advance_step (db := db) hg
      have hx := st.all hi
      have hp : ({ s with qhead := s.qhead + 1 } : Stk).tr p := hx.1.inv.tv p (List.mem_of_getElem? hg)
      have hl := propLit_good PK.pinv (sandbox := false) hx.1 hp
      cases hr : propLit false p db { s with qhead := s.qhead + 1 } with
      | ok db1 s1 =>
        rw [hr] at hl h
        simp only [] at h
        have hy := hl.all hx.1
        obtain ⟨q1, q2, q3⟩ := propLit_complete PK.pinv hx.1 hp hr
        have hu := reuse_good (q := q) hy.1
        have hq := reuseLoop_qhead (db := db1) (q := q) (todo := s1.saved) (s := s1)
        cases hru : reuse db1 q s1 with
        | ok db2 s2 =>
          have hq2 := hq
          change (reuse db1 q s1).All _ at hq2
          rw [hru] at hq2 h hu
          have hu : PSteps db1 s1 db2 s2 := hu
          simp only [] at h
          have hw := hu.all hy.1
          obtain ⟨j1, j2, j3⟩ := propLoop_complete hw.1 h
          have hz := propLoop_good (q := q) (n := n) hw.1
          rw [h] at hz
          have he := (hz.all hw.1).2.2
          have hb : db2.blist = db.blist := by rw [hq2.1]; exact q2
          refine ⟨j1.trans hb, fun i p' hi' hp' e hm => ?_, j3⟩
          by_cases ei : i = s.qhead
          · subst ei
            have : s'.trail[s.qhead]? = some p := getElem?_ext he (getElem?_ext ((hx.2.2.trans hy.2.2).trans hw.2.2) hg)
            rw [this] at hp'; cases hp'
            exact he.tr _ (hw.2.2.tr _ (q3 e hm))
          · exact j2 i p' (by rw [hq2.2, q1]; simp only []; omega) hp' e (by rw [hb]; exact hm)
        | conflict db2 s2 l r => rw [hru] at h; simp at h
        | panic => rw [hru] at h; simp at h
        | fuel => rw [hru] at h; simp at h
      | conflict db1 s1 l r => rw [hr] at h; simp at h
      | panic => rw [hr] at h; simp at h
      | fuel => rw [hr] at h; simp at h

theorem propagateSandbox_complete {db : Cdb} {s : Stk} {db' : Cdb} {s' : Stk} (hi : RInv db s) (h : propagateSandbox db s = .ok db' s') :
    db'.blist = db.blist ∧ BinDone db s.qhead s' ∧ s'.trail.length ≤ s'.qhead := propLoopSandbox_complete PK.rinv hi h

theorem propagate_complete {q : Nat} {db : Cdb} {s : Stk} {db' : Cdb} {s' : Stk} (hi : PInv db s) (h : propagate q db s = .ok db' s') :
    db'.blist = db.blist ∧ BinDone db s.qhead s' ∧ s'.trail.length ≤ s'.qhead := by
  unfold propagate at h
  have hu := reuse_good (q := q) hi
  have hq := reuseLoop_qhead (db := db) (q := q) (todo := s.saved) (s := s)
  unfold reuse at hu
  unfold reuse at h
  cases hru : reuseLoop db q s.saved s with
  | ok db2 s2 =>
    rw [hru] at hu hq h
    simp only [] at h
    obtain ⟨j1, j2, j3⟩ := propLoop_complete (hu.all hi).1 h
    obtain ⟨rfl, e⟩ := hq
    rw [e] at j2
    exact ⟨j1, j2, j3⟩
  | conflict db2 s2 l r => rw [hru] at h; simp at h
  | panic => rw [hru] at h; simp at h
  | fuel => rw [hru] at h; simp at h

end Splr
