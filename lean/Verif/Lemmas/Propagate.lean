import Verif.Lemmas.PStep
/-! The propagation loops perform only the steps of `PStep`, and report only real conflicts. -/
namespace Splr
open Stk

/-- Some clause is too long for its 16-bit search position. -/
def Cdb.Huge (db : Cdb) : Prop := ∃ i, 65535 ≤ (db.clause i).lits.length

theorem Cdb.Same.huge {db db' : Cdb} (h : Same db db') (hh : db'.Huge) : db.Huge := by
  obtain ⟨i, hi⟩ := hh; exact ⟨i, by rw [← (h.perm i).length_eq]; exact hi⟩

/-- What a propagation routine started in `db`, `s` may return. -/
def PRes.Good (db : Cdb) (s : Stk) : PRes → Prop
  | .ok db' s' => PSteps db s db' s'
  | .conflict db' s' l r => PSteps db s db' s' ∧ ConfOK db' s' l r
  | .panic => db.Huge
  | .fuel => True

theorem PSteps.same {db s db' s'} (h : PSteps db s db' s') (hw : db.WF) : Cdb.Same db db' := by
  induction h with
  | refl => exact .refl _
  | cons h _ ih => exact (h.db hw).2.trans (ih (h.db hw).1)

theorem PRes.Good.after {db s db1 s1} (h : PSteps db s db1 s1) (hi : db.WF) {r : PRes} (hg : r.Good db1 s1) : r.Good db s := by
  cases r with
  | ok db' s' => exact h.trans hg
  | conflict db' s' l r => exact ⟨h.trans hg.1, hg.2⟩
  | panic => exact h.same hi |>.huge hg
  | fuel => trivial

theorem binLoop_good {K : Cdb → Stk → Prop} (hK : PK K) {p : Lit} {db : Cdb} : ∀ {bs : List (Lit × Nat)} {s : Stk}, K db s → s.tr p →
    (∀ x ∈ bs, BinC db x.1 p.neg) → (binLoop p db bs s).Good db s
  | [], s, _, _, _ => .refl
  | (b, c) :: bs, s, hi, hp, hb => by
    have hbc := hb (b, c) (by simp)
    unfold binLoop
    cases hv : s.val b with
    | none =>
      have hn := val_none.1 hv
      have st : PStep db s db (s.assignImpl b (.binary p) s.dl) := .imply b _ hn ⟨hbc, hp⟩
      have hx := (PSteps.one st).allK hK hi
      exact PRes.Good.after (.one st) (hK.wf hi) (binLoop_good hK hx.1 (hx.2.2.tr p hp) fun x hx => hb x (by simp [hx]))
    | some v =>
      cases v with
      | true => exact binLoop_good hK hi hp fun x hx => hb x (by simp [hx])
      | false => exact ⟨.refl, hbc, val_false.1 hv, hp⟩

theorem order_mem {len sf : Nat} {ks : List Nat} (h : Scan.order len sf = some ks) {k : Nat} (hk : k ∈ ks) : 2 ≤ k ∧ k < len := by
  unfold Scan.order at h
  split at h
  · simp at h
  · cases h
    rcases List.mem_append.1 hk with h1 | h1
    · obtain ⟨i, hi, e⟩ := List.mem_iff_getElem.1 h1
      simp at e hi; omega
    · have h1 := List.mem_of_mem_take h1
      obtain ⟨i, hi, e⟩ := List.mem_iff_getElem.1 h1
      simp at e hi; omega

theorem order_cover {len sf : Nat} {ks : List Nat} (h : Scan.order len sf = some ks) {k : Nat} (h2 : 2 ≤ k) (hk : k < len) : k ∈ ks := by
  unfold Scan.order at h
  split at h
  · simp at h
  · cases h
    rw [List.mem_append]
    by_cases e : sf ≤ k
    · left; rw [List.mem_iff_getElem]; exact ⟨k - sf, by simp; omega, by simp; omega⟩
    · right; rw [List.mem_iff_getElem]; exact ⟨k - 2, by simp; omega, by simp; omega⟩

theorem nextSf_le {b : Bool} {k : Nat} (h : nextSf b k < 2) (h2 : 2 ≤ k) : 65535 ≤ k := by
  unfold nextSf Scan.nextStartSandbox Scan.nextStart at h
  split at h <;> omega

/-- One entry of the watch list: what the code knows when it has not found a new watch. -/
theorem all_false_of_find {s : Stk} {l0 l1 : Lit} {tl : Cls} {sf : Nat} {ks : List Nat}
    (ho : Scan.order (l0 :: l1 :: tl).length sf = some ks)
    (hf : ks.find? (fun k => ((l0 :: l1 :: tl)[k]?.bind s.val) != some false) = none) : ∀ x ∈ tl, s.tr x.neg := by
  intro x hx
  obtain ⟨i, hi, e⟩ := List.mem_iff_getElem.1 hx
  have hm := order_cover (k := i + 2) ho (by omega) (by simp; omega)
  have := List.find?_eq_none.1 hf _ hm
  simp [hi, e] at this
  exact val_false.1 this

theorem watch_pos {l0 l1 : Lit} {tl : Cls} {p : Lit} (h : Watched (l0 :: l1 :: tl) p) :
    (l0 :: l1 :: tl)[if p.neg = l1 then 1 else 0]? = some p.neg ∧
    (l0 :: l1 :: tl)[1 - if p.neg = l1 then 1 else 0]? = some (if p.neg = l1 then l0 else l1) := by
  by_cases e : p.neg = l1
  · simp [e]
  · simp only [e, if_false, Nat.sub_zero]
    rcases h.2 with h | h
    · exact ⟨h, rfl⟩
    · simp at h; exact absurd h.symm e

theorem watchLoop_good {K : Cdb → Stk → Prop} (hK : PK K) {sandbox : Bool} {p : Lit} : ∀ {n idx : Nat} {db : Cdb} {s : Stk}, K db s → s.tr p →
    idx + n = (db.watch p).length → (watchLoop sandbox p n idx db s).Good db s
  | 0, idx, db, s, _, _, _ => .refl
  | n + 1, idx, db, s, hi, hp, hlen => by
    unfold watchLoop
    have hlt : idx < (db.watch p).length := by omega
    rw [List.getElem?_eq_getElem hlt]
    obtain ⟨cid, cached, he⟩ : ∃ cid cached, (db.watch p)[idx] = (cid, cached) := ⟨_, _, rfl⟩
    have hge : (db.watch p)[idx]? = some (cid, cached) := by rw [List.getElem?_eq_getElem hlt, he]
    rw [he]
    simp only []
    split
    · exact watchLoop_good hK hi hp (by omega)
    split
    · exact watchLoop_good hK hi hp (by omega)
    rename_i hcn
    have hW : Watched (db.clause cid).lits p := ((hK.wf hi).wIff p cid).1 ⟨cached, by rw [← he]; exact List.getElem_mem _⟩
    split
    swap
    · rename_i hc; exfalso
      have h3 := hW.1
      match hl : (db.clause cid).lits, h3 with
      | l0 :: l1 :: tl, _ => exact hc _ _ _ hl
    rename_i l0 l1 tl hl
    rw [hl] at hW
    obtain ⟨wp1, wp2⟩ := watch_pos hW
    set other := if p.neg = l1 then l0 else l1 with hother
    set pos := (if p.neg = l1 then 1 else 0 : Nat) with hpos
    have hple : pos ≤ 1 := by rw [hpos]; split <;> omega
    -- restoring an entry keeps the list length
    have hrl : ∀ (d : Cdb) op, d.watch p = db.watch p → ((d.restoreWatch p idx op).watch p).length = (db.watch p).length := by
      intro d op hd; unfold Cdb.restoreWatch; split
      · rw [hd]
      · simp [upd, hd]
    split
    · have st : PStep db s (db.restoreWatch p idx (some other)) s := .restore _ _ _
      have hx := (PSteps.one st).allK hK hi
      exact PRes.Good.after (.one st) (hK.wf hi) (watchLoop_good hK hx.1 hp (by rw [hrl db _ rfl]; omega))
    rename_i hno
    have hot : ¬ s.tr other := by
      intro ht
      by_cases e : cached = other
      · rw [e] at hcn; exact hcn (val_true.2 ht)
      · exact hno ⟨e, val_true.2 ht⟩
    cases hord : Scan.order (l0 :: l1 :: tl).length (db.clause cid).searchFrom with
    | none =>
      exfalso; unfold Scan.order at hord; have := (hK.wf hi).sf cid; split at hord
      · omega
      · simp at hord
    | some ks =>
      simp only []
      cases hf : ks.find? (fun k => ((l0 :: l1 :: tl)[k]?.bind s.val) != some false) with
      | some k =>
        simp only []
        have hkm := List.mem_of_find?_eq_some hf
        obtain ⟨k2, klt⟩ := order_mem hord hkm
        split
        · rename_i h2
          refine ⟨cid, ?_⟩
          have := nextSf_le h2 k2
          rw [hl]; omega
        · rename_i h2
          have hk : (db.clause cid).lits[k]? = some ((l0 :: l1 :: tl)[k]) := by rw [hl]; exact List.getElem?_eq_getElem klt
          have ha : (db.clause cid).lits[pos]? = some p.neg := by rw [hl]; exact wp1
          have hb : (db.clause cid).lits[1 - pos]? = some other := by rw [hl]; exact wp2
          have hkf : ¬ s.tr ((l0 :: l1 :: tl)[k]).neg := by
            have := List.find?_some hf
            simp only [List.getElem?_eq_getElem klt, Option.bind_some, bne_iff_ne, ne_eq] at this
            exact fun h => this (val_false.2 h)
          have st : PStep db s _ s := .move p idx cid pos k (nextSf sandbox k) cached _ other hge hple ha hb k2 hk (by omega) hp hot hkf
          have hx := (PSteps.one st).allK hK hi
          have hm := Cdb.moveWatch_spec (hK.wf hi) hge hple ha hb k2 hk (sf := nextSf sandbox k) (by omega)
          refine PRes.Good.after (.one st) (hK.wf hi) (watchLoop_good hK hx.1 hp ?_)
          rw [hm.2.2.2.2.1, (swapRemove_perm _ _ hlt).length_eq, List.length_eraseIdx_of_lt hlt]; omega
      | none =>
        simp only []
        have htl := all_false_of_find hord hf
        -- the database after the optional swap and the restoring of the entry
        have hne : tl ≠ [] := by rintro rfl; have := hW.1; simp at this
        obtain ⟨l2, tl', rfl⟩ := List.exists_cons_of_ne_nil hne
        have key : PSteps db s ((if pos = 0 then db.swapWatch cid else db).restoreWatch p idx
            (if cached ≠ other then some other else none)) s ∧
            (((if pos = 0 then db.swapWatch cid else db).restoreWatch p idx (if cached ≠ other then some other else none)).clause cid).lits
              = other :: p.neg :: l2 :: tl' ∧
            (((if pos = 0 then db.swapWatch cid else db).restoreWatch p idx (if cached ≠ other then some other else none)).watch p).length
              = (db.watch p).length := by
          have hcl := fun (d : Cdb) (op : Option Lit) => (Cdb.same_restoreWatch d p idx op).1
          rw [hcl]
          by_cases e : p.neg = l1
          · have e1 : pos = 1 := by rw [hpos, if_pos e]
            have e2 : other = l0 := by rw [hother, if_pos e]
            simp only [e1, Nat.one_ne_zero, if_false]
            exact ⟨.one (.restore _ _ _), by rw [hl, e2, e], hrl _ _ rfl⟩
          · have e1 : pos = 0 := by rw [hpos, if_neg e]
            have e2 : other = l1 := by rw [hother, if_neg e]
            simp only [e1, if_true]
            have e3 : l0 = p.neg := by rw [e1] at wp1; simpa using wp1
            refine ⟨.cons (.swap cid l0 l1 l2 tl' hl (by rw [e3]; simpa using hp)) (.one (.restore _ _ _)), ?_, hrl _ _ rfl⟩
            simp [Cdb.swapWatch, Cdb.setC, upd, hl, swapAt, e2, e3]
        obtain ⟨key1, key2, key3⟩ := key
        set db1 := (if pos = 0 then db.swapWatch cid else db).restoreWatch p idx (if cached ≠ other then some other else none) with hdb1
        have hx := key1.allK hK hi
        have hpn : s.tr p.neg.neg := by rw [Lit.neg_neg]; exact hp
        split
        · rename_i hof
          refine ⟨key1, ⟨_, key2⟩, fun x hx => ?_⟩
          rw [key2] at hx
          rcases List.mem_cons.1 hx with rfl | hx
          · exact val_false.1 hof
          rcases List.mem_cons.1 hx with rfl | hx
          · exact hpn
          · exact htl x hx
        · rename_i hof
          have hn : s.assign other.var = none := by
            rcases tr_cases s other with h | h | h
            · exact absurd h hot
            · exact absurd (val_false.2 h) hof
            · exact h
          have st : PStep db1 s db1 (s.assignImpl other (.impl cid) s.dl) := by
            refine .imply other (.impl cid) hn ⟨_, key2, fun x hx => ?_⟩
            rcases List.mem_cons.1 hx with rfl | hx
            · exact hpn
            · exact htl x hx
          have hy := (PSteps.one st).allK hK hx.1
          exact PRes.Good.after (key1.trans (.one st)) (hK.wf hi) (watchLoop_good hK hy.1 (hy.2.2.tr p hp) (by rw [key3]; omega))

theorem propLit_good {K : Cdb → Stk → Prop} (hK : PK K) {sandbox : Bool} {p : Lit} {db : Cdb} {s : Stk} (hi : K db s) (hp : s.tr p) :
    (propLit sandbox p db s).Good db s := by
  unfold propLit
  have hb := binLoop_good hK (p := p) (bs := db.blist p.neg) hi hp (fun x hx => by
    obtain ⟨b, c⟩ := x
    exact ⟨c, (((hK.wf hi).bIff p.neg b c).1 hx).symm⟩)
  cases hr : binLoop p db (db.blist p.neg) s with
  | ok db1 s1 =>
    rw [hr] at hb
    simp only []
    have hx := hb.allK hK hi
    exact PRes.Good.after hb (hK.wf hi) (watchLoop_good hK hx.1 (hx.2.2.tr p hp) (by simp))
  | conflict db1 s1 l r => rw [hr] at hb; exact hb
  | panic => rw [hr] at hb; exact hb
  | fuel => trivial

theorem reuseLoop_good {db : Cdb} {q : Nat} : ∀ {todo : List Lit} {s : Stk}, PInv db { s with saved := todo } →
    (reuseLoop db q todo s).Good db { s with saved := todo }
  | [], s, _ => .refl
  | l :: todo, s, hi => by
    have hat := hi.saved [] l todo rfl
    unfold reuseLoop
    -- the next element, when `l` is true
    have skip : ∀ t : Stk, t.tr l → PInv db { t with saved := l :: todo } →
        (reuseLoop db q todo t).Good db { t with saved := l :: todo } := by
      intro t ht hti
      have st : PStep db { t with saved := l :: todo } db { t with saved := todo } := .drop l todo rfl ht
      have hx := (PSteps.one st).all hti
      exact PRes.Good.after (.one st) hti.wf (reuseLoop_good hx.1)
    have stop : (PRes.ok db { s.insertHeap l.var with saved := l :: todo }).Good db { s with saved := l :: todo } :=
      .one (PStep.heap (s := { s with saved := l :: todo }) l.var (by simp))
    have fin : PSteps db { s with saved := l :: todo } db ({ s with saved := l :: todo } : Stk).clearSaved := .one .clear
    have put : ∀ r, s.assign l.var = none → Implied db { s with saved := l :: todo } l r →
        (reuseLoop db q todo (s.assignImpl l r s.dl)).Good db { s with saved := l :: todo } := by
      intro r hn hr
      have st : PStep db { s with saved := l :: todo } db (({ s with saved := l :: todo } : Stk).assignImpl l r s.dl) :=
        .imply l r hn hr
      have hx := (PSteps.one st).all hi
      have e : ({ s with saved := l :: todo } : Stk).assignImpl l r s.dl = { s.assignImpl l r s.dl with saved := l :: todo } := by
        unfold Stk.assignImpl; simp only []; split <;> rfl
      rw [e] at st hx
      refine PRes.Good.after (.one st) hi.wf (skip _ ?_ hx.1)
      unfold tr; rw [(assignImpl_fields s l r s.dl).1]; simp [upd]
    cases hv : s.val l with
    | none =>
      have hn := val_none.1 hv
      cases hr : s.reasonSaved l.var with
      | none => unfold SavedAt at hat; simp only [hr] at hat
      | decision k => exact stop
      | binary m =>
        unfold SavedAt at hat; simp only [hr] at hat
        refine put _ hn ⟨hat.1, ?_⟩
        rcases hat.2 with h | h
        · exact h
        · simp at h
      | impl cid =>
        unfold SavedAt at hat; simp only [hr] at hat
        simp only []
        split
        · exact stop
        · have h0 := hat.2.2 hn
          match hl : (db.clause cid).lits, h0 with
          | x :: rest, h0 =>
            simp at h0; subst h0
            refine put _ hn ⟨rest, hl, fun y hy => ?_⟩
            rcases hat.2.1 y (by rw [hl]; simp [hy]) with e | e | e
            · exfalso; have := nodup_of_map_var' (hi.wf.nd cid); rw [hl] at this; subst e; exact (List.nodup_cons.1 this).1 hy
            · exact e
            · simp at e
    | some v =>
      cases v with
      | true => exact skip s (val_true.1 hv) hi
      | false =>
        have hf := val_false.1 hv
        cases hr : s.reasonSaved l.var with
        | none => unfold SavedAt at hat; simp only [hr] at hat
        | decision k => exact stop
        | binary m =>
          unfold SavedAt at hat; simp only [hr] at hat
          refine ⟨fin, hat.1, hf, ?_⟩
          rcases hat.2 with h | h
          · exact h
          · simp at h
        | impl cid =>
          unfold SavedAt at hat; simp only [hr] at hat
          simp only []
          have hall : ∀ y ∈ (db.clause cid).lits, s.tr y.neg := by
            intro y hy
            rcases hat.2.1 y hy with e | e | e
            · subst e; exact hf
            · exact e
            · simp at e
          match hl : (db.clause cid).lits with
          | x :: rest => exact ⟨fin, ⟨rest, hl⟩, fun y hy => hall y hy⟩
          | [] => have := hat.1; rw [hl] at this; simp at this
where
  nodup_of_map_var' {c : Cls} (h : (c.map Lit.var).Nodup) : c.Nodup := Cdb.nodup_of_map_var h

theorem reuse_good {db : Cdb} {q : Nat} {s : Stk} (hi : PInv db s) : (reuse db q s).Good db s :=
  reuseLoop_good (s := s) (todo := s.saved) hi

/-- The reuse of the saved trail ends normally or with a conflict. -/
theorem reuseLoop_ends {db : Cdb} {q : Nat} : ∀ {todo : List Lit} {s : Stk}, PInv db { s with saved := todo } →
    reuseLoop db q todo s ≠ .panic ∧ reuseLoop db q todo s ≠ .fuel
  | [], s, _ => by simp [reuseLoop]
  | l :: todo, s, hi => by
    have hat := hi.saved [] l todo rfl
    unfold reuseLoop
    have skip : ∀ t : Stk, t.tr l → PInv db { t with saved := l :: todo } → reuseLoop db q todo t ≠ .panic ∧ reuseLoop db q todo t ≠ .fuel := by
      intro t ht hti
      have st : PStep db { t with saved := l :: todo } db { t with saved := todo } := .drop l todo rfl ht
      exact reuseLoop_ends ((PSteps.one st).all hti).1
    have put : ∀ r, s.assign l.var = none → Implied db { s with saved := l :: todo } l r →
        reuseLoop db q todo (s.assignImpl l r s.dl) ≠ .panic ∧ reuseLoop db q todo (s.assignImpl l r s.dl) ≠ .fuel := by
      intro r hn hr
      have st : PStep db { s with saved := l :: todo } db (({ s with saved := l :: todo } : Stk).assignImpl l r s.dl) :=
        .imply l r hn hr
      have hx := (PSteps.one st).all hi
      have e : ({ s with saved := l :: todo } : Stk).assignImpl l r s.dl = { s.assignImpl l r s.dl with saved := l :: todo } := by
        unfold Stk.assignImpl; simp only []; split <;> rfl
      rw [e] at hx
      refine skip _ ?_ hx.1
      unfold tr; rw [(assignImpl_fields s l r s.dl).1]; simp [upd]
    cases hv : s.val l with
    | none =>
      have hn := val_none.1 hv
      cases hr : s.reasonSaved l.var with
      | none => unfold SavedAt at hat; simp only [hr] at hat
      | decision k => simp
      | binary m =>
        unfold SavedAt at hat; simp only [hr] at hat
        refine put _ hn ⟨hat.1, ?_⟩
        rcases hat.2 with h | h
        · exact h
        · simp at h
      | impl cid =>
        unfold SavedAt at hat; simp only [hr] at hat
        simp only []
        split
        · simp
        · have h0 := hat.2.2 hn
          match hl : (db.clause cid).lits, h0 with
          | x :: rest, h0 =>
            simp at h0; subst h0
            refine put _ hn ⟨rest, hl, fun y hy => ?_⟩
            rcases hat.2.1 y (by rw [hl]; simp [hy]) with e | e | e
            · exfalso; have := Cdb.nodup_of_map_var (hi.wf.nd cid); rw [hl] at this; subst e; exact (List.nodup_cons.1 this).1 hy
            · exact e
            · simp at e
    | some v =>
      cases v with
      | true => exact skip s (val_true.1 hv) hi
      | false =>
        cases hr : s.reasonSaved l.var with
        | none => unfold SavedAt at hat; simp only [hr] at hat
        | decision k => simp
        | binary m => simp
        | impl cid =>
          unfold SavedAt at hat; simp only [hr] at hat
          simp only []
          match hl : (db.clause cid).lits with
          | x :: rest => simp
          | [] => have := hat.1; rw [hl] at this; simp at this

theorem reuse_ends {db : Cdb} {q : Nat} {s : Stk} (hi : PInv db s) : reuse db q s ≠ .panic ∧ reuse db q s ≠ .fuel :=
  reuseLoop_ends (s := s) (todo := s.saved) hi

theorem advance_step {db : Cdb} {s : Stk} {p : Lit} (h : s.trail[s.qhead]? = some p) :
    PSteps db s db { s with qhead := s.qhead + 1 } := .one (.advance (List.getElem?_eq_some_iff.1 h).1)

theorem propLoop_good {q : Nat} : ∀ {n : Nat} {db : Cdb} {s : Stk}, PInv db s → (propLoop q n db s).Good db s
  | 0, _, _, _ => trivial
  | n + 1, db, s, hi => by
    unfold propLoop
    cases hg : s.trail[s.qhead]? with
    | none => exact .refl
    | some p =>
      simp only []
      have st := advance_step (db := db) hg
      have hx := st.all hi
      have hp : ({ s with qhead := s.qhead + 1 } : Stk).tr p := hx.1.inv.tv p (List.mem_of_getElem? hg)
      have hl := propLit_good PK.pinv (sandbox := false) hx.1 hp
      cases hr : propLit false p db { s with qhead := s.qhead + 1 } with
      | ok db1 s1 =>
        rw [hr] at hl
        simp only []
        have hy := hl.all hx.1
        have hu := reuse_good (q := q) hy.1
        cases hru : reuse db1 q s1 with
        | ok db2 s2 =>
          rw [hru] at hu
          simp only []
          have hz := hu.all hy.1
          exact PRes.Good.after (st.trans (hl.trans hu)) hi.wf (propLoop_good hz.1)
        | conflict db2 s2 l r => rw [hru] at hu; exact PRes.Good.after (st.trans hl) hi.wf hu
        | panic => rw [hru] at hu; exact PRes.Good.after (st.trans hl) hi.wf hu
        | fuel => trivial
      | conflict db1 s1 l r => rw [hr] at hl; exact PRes.Good.after st hi.wf hl
      | panic => rw [hr] at hl; exact PRes.Good.after st hi.wf hl
      | fuel => trivial

theorem propLoopSandbox_good {K : Cdb → Stk → Prop} (hK : PK K) : ∀ {n : Nat} {db : Cdb} {s : Stk}, K db s → (propLoopSandbox n db s).Good db s
  | 0, _, _, _ => trivial
  | n + 1, db, s, hi => by
    unfold propLoopSandbox
    cases hg : s.trail[s.qhead]? with
    | none => exact .refl
    | some p =>
      simp only []
      have st := advance_step (db := db) hg
      have hx := st.allK hK hi
      have hp : ({ s with qhead := s.qhead + 1 } : Stk).tr p := (hK.inv hx.1).tv p (List.mem_of_getElem? hg)
      have hl := propLit_good hK (sandbox := true) hx.1 hp
      cases hr : propLit true p db { s with qhead := s.qhead + 1 } with
      | ok db1 s1 =>
        rw [hr] at hl
        simp only []
        have hy := hl.allK hK hx.1
        exact PRes.Good.after (st.trans hl) (hK.wf hi) (propLoopSandbox_good hK hy.1)
      | conflict db1 s1 l r => rw [hr] at hl; exact PRes.Good.after st (hK.wf hi) hl
      | panic => rw [hr] at hl; exact PRes.Good.after st (hK.wf hi) hl
      | fuel => trivial

theorem propagate_good {q : Nat} {db : Cdb} {s : Stk} (hi : PInv db s) : (propagate q db s).Good db s := by
  unfold propagate
  have hu := reuse_good (q := q) hi
  cases hru : reuse db q s with
  | ok db2 s2 =>
    rw [hru] at hu
    simp only []
    exact PRes.Good.after hu hi.wf (propLoop_good (hu.all hi).1)
  | conflict db2 s2 l r => rw [hru] at hu; exact hu
  | panic => rw [hru] at hu; exact hu
  | fuel => trivial

theorem propagateSandbox_good {db : Cdb} {s : Stk} (hi : RInv db s) : (propagateSandbox db s).Good db s :=
  propLoopSandbox_good PK.rinv hi

end Splr
