import Verif.Lemmas.WatchSearch
import Verif.Lemmas.Ends
/-! Conflict analysis does not panic: every conflict involves the current level. -/
namespace Splr
open Stk

/-- `Z`: literals that are false at the root level. The saved literals are not among them, and their clauses have a watched
literal that is not among them. -/
structure Nz (Z : Lit → Prop) (db : Cdb) (s : Stk) : Prop where
  root : ∀ w, Z w → Root s w.neg
  lit : ∀ l ∈ s.saved, ¬ Z l
  cl : ∀ l ∈ s.saved, ∀ cid, s.reasonSaved l.var = .impl cid → ∃ w, W2 (db.clause cid).lits w ∧ ¬ Z w

/-- The conflict involves the current level. -/
def Top (db : Cdb) (s : Stk) (l : Lit) (r : Reason) : Prop :=
  s.level l.var = s.dl ∨ ∃ q ∈ antecedents db r, s.level q.var = s.dl

theorem Nz.ext {Z : Lit → Prop} {db db' : Cdb} {s s' : Stk} (h : Nz Z db s) (he : Stk.Ext s s')
    (hw : ∀ i w, W2 (db.clause i).lits w → ¬ Z w → ∃ w', W2 (db'.clause i).lits w' ∧ ¬ Z w') : Nz Z db' s' := by
  obtain ⟨t, ht⟩ := he.savedSub
  have hm : ∀ l ∈ s'.saved, l ∈ s.saved := fun l hl => by rw [ht]; exact List.mem_append_right _ hl
  refine ⟨fun w hz => ?_, fun l hl => h.lit l (hm l hl), fun l hl cid e => ?_⟩
  · obtain ⟨a, b⟩ := h.root w hz
    exact ⟨he.tr _ a, by rw [he.level _ (tr_assigned a)]; exact b⟩
  · rw [he.reasonSaved] at e
    obtain ⟨w, w1, w2⟩ := h.cl l (hm l hl) cid e
    exact hw cid w w1 w2

theorem PStep.nz {Z : Lit → Prop} {db s db' s'} (st : PStep db s db' s') (hw : db.WF) (h : Nz Z db s) : Nz Z db' s' := by
  refine h.ext st.ext fun i w w1 w2 => ?_
  cases st with
  | restore l idx op => rw [(Cdb.same_restoreWatch db l idx op).1]; exact ⟨w, w1, w2⟩
  | move p idx cid old k sf b lk other hii ho ha hb h2 hk hss hp ht hf =>
    obtain ⟨-, c1, -⟩ := Cdb.moveWatch_spec hw hii ho ha hb h2 hk hss
    rw [c1]
    by_cases e : i = cid
    · subst e
      rw [upd_same]
      have hlt : old < (db.clause i).lits.length := (List.getElem?_eq_some_iff.1 ha).1
      refine ⟨lk, ?_, fun hz => hf (h.root _ hz).1⟩
      have : (swapAt (db.clause i).lits old k)[old]? = some lk := by
        unfold swapAt; rw [ha, hk]; simp only []
        rw [List.getElem?_set_ne (by omega), List.getElem?_set_self hlt]
      unfold W2
      simp only []
      rcases Nat.le_one_iff_eq_zero_or_eq_one.1 ho with rfl | rfl
      · exact .inl this
      · exact .inr this
    · rw [upd_of_ne _ _ e]; exact ⟨w, w1, w2⟩
  | swap cid l0 l1 l2 tl hl h0 =>
    by_cases e : i = cid
    · subst e
      rw [hl] at w1
      refine ⟨w, ?_, w2⟩
      have hx : ((db.swapWatch i).clause i).lits = l1 :: l0 :: l2 :: tl := by simp [Cdb.swapWatch, Cdb.setC, upd, hl, swapAt]
      rw [hx]; exact W2.iff.2 (W2.iff.1 w1).symm
    · refine ⟨w, ?_, w2⟩
      have hx : ((db.swapWatch cid).clause i) = db.clause i := by simp [Cdb.swapWatch, Cdb.setC, upd, e]
      rw [hx]; exact w1
  | _ => exact ⟨w, w1, w2⟩

theorem PSteps.nz {Z : Lit → Prop} {db s db' s'} (st : PSteps db s db' s') (hw : db.WF) (h : Nz Z db s) : Nz Z db' s' := by
  induction st with
  | refl => exact h
  | cons st _ ih => exact ih (st.db hw).1 (st.nz hw h)

/-! ## the conflict involves the current level -/

/-- A false clause with an ordinary watched literal has a literal of the current level. -/
theorem false_top {Z : Lit → Prop} {db : Cdb} {s : Stk} (hi : Inv db s) (hw : Wt (fun _ w => Z w) db s) {i : Nat} {w : Lit}
    (h2 : W2 (db.clause i).lits w) (hz : ¬ Z w) (hf : ∀ x ∈ (db.clause i).lits, s.tr x.neg) : s.level w.var = s.dl := by
  have hm : w ∈ (db.clause i).lits := by rcases h2 with h | h <;> exact List.mem_of_getElem? h
  by_contra hne
  have hdone : Done s w.neg := by
    refine ⟨hf w hm, fun hin => ?_⟩
    obtain ⟨j, hj, e⟩ := List.mem_iff_getElem.1 hin
    rw [List.getElem_drop] at e
    rw [List.length_drop] at hj
    have := level_pending hi hw.cur (i := s.qhead + j) (by omega) (p := w.neg) (by rw [← e]; exact List.getElem?_eq_getElem (by omega))
    exact hne (by simpa using this)
  obtain ⟨t, t1, t2, -⟩ := hw.wat i w h2 hdone hz
  exact tr_not_neg t2 (hf t t1)

/-- The result is not a conflict, or the conflict involves the current level. -/
def PRes.Top : PRes → Prop
  | .conflict db s l r => Splr.Top db s l r
  | _ => True

theorem reuseLoop_top {Z : Lit → Prop} {db : Cdb} {q : Nat} : ∀ {todo : List Lit} {s : Stk}, PInv db { s with saved := todo } →
    Wt (fun _ w => Z w) db s → Nz Z db { s with saved := todo } → (reuseLoop db q todo s).Top
  | [], s, _, _, _ => trivial
  | l :: todo, s, hi, hw, hn => by
    have hat := hi.saved [] l todo rfl
    unfold reuseLoop
    have skip : ∀ t : Stk, t.tr l → PInv db { t with saved := l :: todo } → Wt (fun _ w => Z w) db t → Nz Z db { t with saved := l :: todo } →
        (reuseLoop db q todo t).Top := by
      intro t ht hti htw htn
      have st : PStep db { t with saved := l :: todo } db { t with saved := todo } := .drop l todo rfl ht
      exact reuseLoop_top ((PSteps.one st).all hti).1 htw (st.nz hi.wf htn)
    have put : ∀ r, s.assign l.var = none → Implied db { s with saved := l :: todo } l r →
        (reuseLoop db q todo (s.assignImpl l r s.dl)).Top := by
      intro r hnn hr
      have st : PStep db { s with saved := l :: todo } db (({ s with saved := l :: todo } : Stk).assignImpl l r s.dl) :=
        .imply l r hnn hr
      have hx := (PSteps.one st).all hi
      have hy := st.nz hi.wf hn
      have e : ({ s with saved := l :: todo } : Stk).assignImpl l r s.dl = { s.assignImpl l r s.dl with saved := l :: todo } := by
        unfold Stk.assignImpl; simp only []; split <;> rfl
      rw [e] at st hx hy
      obtain ⟨f1, f2, f3, f4, f5, f6, -⟩ := assignImpl_fields s l r s.dl
      refine skip _ ?_ hx.1 (hw.push hi.inv.qh hnn f1 f2 f4 f6 (by rw [f5]; exact hw.cur)) hy
      unfold tr; rw [(assignImpl_fields s l r s.dl).1]; simp [upd]
    have hinv : Inv db s := hi.inv.congr rfl rfl rfl rfl rfl hi.inv.qh (fun _ _ _ h _ => h) (fun _ _ h => h)
    cases hv : s.val l with
    | none =>
      have hnn := val_none.1 hv
      cases hr : s.reasonSaved l.var with
      | none => trivial
      | decision k => trivial
      | binary m =>
        unfold SavedAt at hat; simp only [hr] at hat
        refine put _ hnn ⟨hat.1, ?_⟩
        rcases hat.2 with h | h
        · exact h
        · simp at h
      | impl cid =>
        unfold SavedAt at hat; simp only [hr] at hat
        simp only []
        split
        · trivial
        · have h0 := hat.2.2 hnn
          match hl : (db.clause cid).lits, h0 with
          | x :: rest, h0 =>
            simp at h0; subst h0
            refine put _ hnn ⟨rest, hl, fun y hy => ?_⟩
            rcases hat.2.1 y (by rw [hl]; simp [hy]) with e | e | e
            · exfalso; have := Cdb.nodup_of_map_var (hi.wf.nd cid); rw [hl] at this; subst e; exact (List.nodup_cons.1 this).1 hy
            · exact e
            · simp at e
    | some b =>
      cases b with
      | true => exact skip s (val_true.1 hv) hi hw hn
      | false =>
        have hf := val_false.1 hv
        cases hr : s.reasonSaved l.var with
        | none => trivial
        | decision k => trivial
        | binary m =>
          unfold SavedAt at hat; simp only [hr] at hat
          obtain ⟨⟨i, hc⟩, hm⟩ := hat
          have hm : s.tr m := by
            rcases hm with h | h
            · exact h
            · simp at h
          left
          show s.level l.var = s.dl
          refine false_top hinv hw (i := i) ?_ (hn.lit l (by simp)) fun x hx => ?_
          · rcases hc with e | e <;> rw [e] <;> simp [W2]
          · have : x = l ∨ x = m.neg := by rcases hc with e | e <;> rw [e] at hx <;> simp at hx <;> tauto
            rcases this with rfl | rfl
            · exact hf
            · simpa using hm
        | impl cid =>
          unfold SavedAt at hat; simp only [hr] at hat
          obtain ⟨w, w1, w2⟩ := hn.cl l (by simp) cid hr
          have hff : ∀ x ∈ (db.clause cid).lits, s.tr x.neg := by
            intro x hx
            rcases hat.2.1 x hx with rfl | h | h
            · exact hf
            · exact h
            · simp at h
          have hlv := false_top hinv hw w1 w2 hff
          have hm : w ∈ (db.clause cid).lits := by rcases w1 with h | h <;> exact List.mem_of_getElem? h
          simp only []
          match hl : (db.clause cid).lits with
          | [] => trivial
          | l0 :: tl =>
            rw [hl] at hm
            show s.level l0.var = s.dl ∨ ∃ q ∈ (db.clause cid).lits.drop 1, s.level q.var = s.dl
            rcases List.mem_cons.1 hm with rfl | hm
            · exact .inl hlv
            · exact .inr ⟨w, by rw [hl]; simpa using hm, hlv⟩

theorem reuse_top {Z : Lit → Prop} {db : Cdb} {q : Nat} {s : Stk} (hi : PInv db s) (hw : Wt (fun _ w => Z w) db s) (hn : Nz Z db s) : (reuse db q s).Top :=
  reuseLoop_top hi hw hn

theorem binLoop_top {p : Lit} {db : Cdb} : ∀ {bs : List (Lit × Nat)} {s : Stk}, s.tr p → s.level p.var = s.dl → (binLoop p db bs s).Top
  | [], s, _, _ => trivial
  | (b, c) :: bs, s, hp, hl => by
    unfold binLoop
    cases hv : s.val b with
    | none =>
      have hn := val_none.1 hv
      obtain ⟨f1, f2, f3, f4, f5, f6, -⟩ := assignImpl_fields s b (.binary p) s.dl
      refine binLoop_top (tr_upd hn f1 hp) ?_
      unfold Stk.dl at *
      rw [f2, f5, upd_of_ne, hl]
      intro e; exact tr_assigned hp (by rw [e]; exact hn)
    | some x =>
      cases x with
      | true => exact binLoop_top hp hl
      | false => exact .inr ⟨p, by simp [antecedents], hl⟩

theorem watchLoop_top {sandbox : Bool} {p : Lit} : ∀ {n idx : Nat} {db : Cdb} {s : Stk}, RInv db s → s.tr p → s.level p.var = s.dl →
    idx + n = (db.watch p).length → (watchLoop sandbox p n idx db s).Top
  | 0, idx, db, s, _, _, _, _ => trivial
  | n + 1, idx, db, s, hi, hp, hlv, hlen => by
    unfold watchLoop
    have hlt : idx < (db.watch p).length := by omega
    rw [List.getElem?_eq_getElem hlt]
    obtain ⟨cid, cached, he⟩ : ∃ cid cached, (db.watch p)[idx] = (cid, cached) := ⟨_, _, rfl⟩
    have hge : (db.watch p)[idx]? = some (cid, cached) := by rw [List.getElem?_eq_getElem hlt, he]
    rw [he]
    simp only []
    split
    · exact watchLoop_top hi hp hlv (by omega)
    split
    · exact watchLoop_top hi hp hlv (by omega)
    rename_i hcn
    have hW : Watched (db.clause cid).lits p := (hi.wf.wIff p cid).1 ⟨cached, by rw [← he]; exact List.getElem_mem _⟩
    split
    swap
    · trivial
    rename_i l0 l1 tl hl
    rw [hl] at hW
    obtain ⟨wp1, wp2⟩ := watch_pos hW
    set other := if p.neg = l1 then l0 else l1 with hother
    set pos := (if p.neg = l1 then 1 else 0 : Nat) with hpos
    have hple : pos ≤ 1 := by rw [hpos]; split <;> omega
    have hrl : ∀ (d : Cdb) op, d.watch p = db.watch p → ((d.restoreWatch p idx op).watch p).length = (db.watch p).length := by
      intro d op hd; unfold Cdb.restoreWatch; split
      · rw [hd]
      · simp [upd, hd]
    split
    · have st : PStep db s (db.restoreWatch p idx (some other)) s := .restore _ _ _
      exact watchLoop_top ((PSteps.one st).allR hi).1 hp hlv (by rw [hrl db _ rfl]; omega)
    rename_i hno
    have hot : ¬ s.tr other := by
      intro ht
      by_cases e : cached = other
      · rw [e] at hcn; exact hcn (val_true.2 ht)
      · exact hno ⟨e, val_true.2 ht⟩
    cases hord : Scan.order (l0 :: l1 :: tl).length (db.clause cid).searchFrom with
    | none => trivial
    | some ks =>
      simp only []
      cases hf : ks.find? (fun k => ((l0 :: l1 :: tl)[k]?.bind s.val) != some false) with
      | some k =>
        simp only []
        have hkm := List.mem_of_find?_eq_some hf
        obtain ⟨k2, klt⟩ := order_mem hord hkm
        split
        · trivial
        · rename_i h2
          have hk : (db.clause cid).lits[k]? = some ((l0 :: l1 :: tl)[k]) := by rw [hl]; exact List.getElem?_eq_getElem klt
          have ha : (db.clause cid).lits[pos]? = some p.neg := by rw [hl]; exact wp1
          have hb : (db.clause cid).lits[1 - pos]? = some other := by rw [hl]; exact wp2
          have hkf : ¬ s.tr ((l0 :: l1 :: tl)[k]).neg := by
            have := List.find?_some hf
            simp only [List.getElem?_eq_getElem klt, Option.bind_some, bne_iff_ne, ne_eq] at this
            exact fun h => this (val_false.2 h)
          have st : PStep db s _ s := .move p idx cid pos k (nextSf sandbox k) cached _ other hge hple ha hb k2 hk (by omega) hp hot hkf
          have hm := Cdb.moveWatch_spec hi.wf hge hple ha hb k2 hk (sf := nextSf sandbox k) (by omega)
          refine watchLoop_top ((PSteps.one st).allR hi).1 hp hlv ?_
          rw [hm.2.2.2.2.1, (swapRemove_perm _ _ hlt).length_eq, List.length_eraseIdx_of_lt hlt]; omega
      | none =>
        simp only []
        have htl := all_false_of_find hord hf
        have hne : tl ≠ [] := by rintro rfl; have := hW.1; simp at this
        obtain ⟨l2, tl', rfl⟩ := List.exists_cons_of_ne_nil hne
        have key : PSteps db s ((if pos = 0 then db.swapWatch cid else db).restoreWatch p idx
            (if cached ≠ other then some other else none)) s ∧
            (((if pos = 0 then db.swapWatch cid else db).restoreWatch p idx (if cached ≠ other then some other else none)).clause cid).lits
              = other :: p.neg :: l2 :: tl' ∧
            (((if pos = 0 then db.swapWatch cid else db).restoreWatch p idx (if cached ≠ other then some other else none)).watch p).length
              = (db.watch p).length := by
          have hcl := fun (d : Cdb) (op : Option Lit) => (Cdb.same_restoreWatch d p idx op).1
          rw [hcl]
          by_cases e : p.neg = l1
          · have e1 : pos = 1 := by rw [hpos, if_pos e]
            have e2 : other = l0 := by rw [hother, if_pos e]
            simp only [e1, Nat.one_ne_zero, if_false]
            exact ⟨.one (.restore _ _ _), by rw [hl, e2, e], hrl _ _ rfl⟩
          · have e1 : pos = 0 := by rw [hpos, if_neg e]
            have e2 : other = l1 := by rw [hother, if_neg e]
            simp only [e1, if_true]
            have e3 : l0 = p.neg := by rw [e1] at wp1; simpa using wp1
            refine ⟨.cons (.swap cid l0 l1 l2 tl' hl (by rw [e3]; simpa using hp)) (.one (.restore _ _ _)), ?_, hrl _ _ rfl⟩
            simp [Cdb.swapWatch, Cdb.setC, upd, hl, swapAt, e2, e3]
        obtain ⟨key1, key2, key3⟩ := key
        set db1 := (if pos = 0 then db.swapWatch cid else db).restoreWatch p idx (if cached ≠ other then some other else none) with hdb1
        have hx := key1.allR hi
        have hpn : s.tr p.neg.neg := by rw [Lit.neg_neg]; exact hp
        split
        · exact .inr ⟨p.neg, by simp [antecedents, key2], hlv⟩
        · rename_i hof
          have hn : s.assign other.var = none := by
            rcases tr_cases s other with h | h | h
            · exact absurd h hot
            · exact absurd (val_false.2 h) hof
            · exact h
          have st : PStep db1 s db1 (s.assignImpl other (.impl cid) s.dl) := by
            refine .imply other (.impl cid) hn ⟨_, key2, fun x hx => ?_⟩
            rcases List.mem_cons.1 hx with rfl | hx
            · exact hpn
            · exact htl x hx
          have hy := (PSteps.one st).allR hx.1
          refine watchLoop_top hy.1 (hy.2.2.tr p hp) ?_ (by rw [key3]; omega)
          rw [hy.2.2.level _ (tr_assigned hp)]
          unfold Stk.dl at *; rw [hy.2.2.lim]; exact hlv

theorem propLit_top {sandbox : Bool} {p : Lit} {db : Cdb} {s : Stk} (hi : RInv db s) (hp : s.tr p) (hl : s.level p.var = s.dl) : (propLit sandbox p db s).Top := by
  unfold propLit
  have hg := binLoop_good PK.rinv (p := p) (bs := db.blist p.neg) hi hp (fun x hx => by
    obtain ⟨b, c⟩ := x
    exact ⟨c, ((hi.wf.bIff p.neg b c).1 hx).symm⟩)
  have ht := binLoop_top (db := db) (bs := db.blist p.neg) hp hl
  cases hr : binLoop p db (db.blist p.neg) s with
  | ok db1 s1 =>
    rw [hr] at hg
    simp only []
    obtain ⟨a, -, c⟩ := hg.allR hi
    refine watchLoop_top a (c.tr p hp) ?_ (by simp)
    rw [c.level _ (tr_assigned hp)]
    unfold Stk.dl at *; rw [c.lim]; exact hl
  | conflict db1 s1 l r => rw [hr] at ht; exact ht
  | panic => trivial
  | fuel => trivial

theorem propLoop_top {Z : Lit → Prop} {q : Nat} : ∀ {n : Nat} {db : Cdb} {s : Stk}, PInv db s → Wt (fun _ w => Z w) db s → Nz Z db s → (propLoop q n db s).Top
  | 0, _, _, _, _, _ => trivial
  | n + 1, db, s, hi, hw, hn => by
    unfold propLoop
    cases hg : s.trail[s.qhead]? with
    | none => trivial
    | some p =>
      simp only []
      have st := advance_step (db := db) hg
      have hx := (st.all hi).1
      have hp : ({ s with qhead := s.qhead + 1 } : Stk).tr p := hx.inv.tv p (List.mem_of_getElem? hg)
      have hlv : s.level p.var = s.dl := level_pending hi.inv hw.cur (Nat.le_refl _) hg
      have hgd := propLit_good PK.pinv (sandbox := false) hx hp
      have hwt := propLit_wtB (Z := Z) (sandbox := false) hx.rinv hp hlv (hw.advance hg)
      have htp := propLit_top (sandbox := false) hx.rinv hp hlv
      have hnz := st.nz hi.wf hn
      cases hr : propLit false p db { s with qhead := s.qhead + 1 } with
      | ok db1 s1 =>
        rw [hr] at hgd hwt
        simp only []
        have hy := (hgd.all hx).1
        have hny := hgd.nz hx.wf hnz
        have hu := reuse_good (q := q) hy
        have hwu := reuse_wtB (q := q) hy.inv hwt
        have htu := reuse_top (q := q) hy hwt hny
        cases hru : reuse db1 q s1 with
        | ok db2 s2 =>
          rw [hru] at hu hwu
          exact propLoop_top (hu.all hy).1 hwu (hu.nz hy.wf hny)
        | conflict db2 s2 l r => rw [hru] at htu; exact htu
        | panic => trivial
        | fuel => trivial
      | conflict db1 s1 l r => rw [hr] at htp; exact htp
      | panic => trivial
      | fuel => trivial

/-- A conflict found by propagation involves the current level. -/
theorem propagate_top {Z : Lit → Prop} {q : Nat} {db : Cdb} {s : Stk} (hi : PInv db s) (hw : Wt (fun _ w => Z w) db s) (hn : Nz Z db s) : (propagate q db s).Top := by
  unfold propagate
  have hu := reuse_good (q := q) hi
  have hwu := reuse_wtB (q := q) hi.inv hw
  have htu := reuse_top (q := q) hi hw hn
  cases hru : reuse db q s with
  | ok db2 s2 =>
    rw [hru] at hu hwu
    exact propLoop_top (hu.all hi).1 hwu (hu.nz hi.wf hn)
  | conflict db2 s2 l r => rw [hru] at htu; exact htu
  | panic => trivial
  | fuel => trivial

/-! ## the analysis ends -/

/-- The number of variables of the trail without a flag. -/
def unseen (ts : List Lit) (seen : Nat → Bool) : Nat := ts.countP fun t => !seen t.var

theorem unseen_upd {seen : Nat → Bool} {v : Nat} (hs : seen v = false) : ∀ {ts : List Lit}, v ∈ ts.map Lit.var →
    unseen ts (upd seen v true) + 1 ≤ unseen ts seen
  | [], h => by simp at h
  | t :: ts, h => by
    unfold unseen
    rw [List.countP_cons, List.countP_cons]
    have mono : ts.countP (fun t => !upd seen v true t.var) ≤ ts.countP fun t => !seen t.var := by
      apply List.countP_mono_left
      intro x _ hx
      simp only [upd_apply] at hx; split at hx
      · simp at hx
      · exact hx
    by_cases e : t.var = v
    · simp only [e, upd_same, hs]; simp; omega
    · have := unseen_upd hs (ts := ts) (by simpa [Ne.symm e] using h)
      unfold unseen at this
      rw [upd_of_ne _ _ e]; omega

theorem redLits_size {s : Stk} {levels : Nat → Bool} : ∀ {qs : Cls} {a a' : Red}, (∀ q ∈ qs, 0 < s.level q.var → q.var ∈ s.trail.map Lit.var) →
    redLits s levels qs a = some a' → a'.stack.length + unseen s.trail a'.seen ≤ a.stack.length + unseen s.trail a.seen ∧
      ∀ x ∈ a'.stack, x ∈ a.stack ∨ x ∈ qs
  | [], a, a', _, h => by simp only [redLits, Option.some.injEq] at h; subst h; exact ⟨Nat.le_refl _, fun x hx => .inl hx⟩
  | q :: qs, a, a', hq, h => by
    unfold redLits at h
    have hq' : ∀ x ∈ qs, 0 < s.level x.var → x.var ∈ s.trail.map Lit.var := fun x hx => hq x (by simp [hx])
    split at h
    · rename_i hc
      split at h
      · obtain ⟨h1, h2⟩ := redLits_size hq' h
        have := unseen_upd hc.2 (hq q (by simp) hc.1)
        simp only [List.length_cons] at h1
        refine ⟨by omega, fun x hx => ?_⟩
        rcases h2 x hx with h3 | h3
        · rcases List.mem_cons.1 h3 with rfl | h3
          · exact .inr (by simp)
          · exact .inl h3
        · exact .inr (by simp [h3])
      · simp at h
    · obtain ⟨h1, h2⟩ := redLits_size hq' h
      exact ⟨h1, fun x hx => (h2 x hx).imp id (by simp +contextual)⟩

theorem antecedents_assigned {db : Cdb} {s : Stk} (hi : Inv db s) {v : Nat} (ha : s.assign v ≠ none) {q : Lit} (hq : q ∈ antecedents db (s.reason v)) :
    s.assign q.var ≠ none := by
  rcases Inv.reason_of_assigned hi ha with ⟨pre, t, post, e, rfl, h1, h2⟩ | ⟨h1, h2⟩
  · obtain ⟨m, hm, hb⟩ := antecedent_before h2 hq
    rw [← hm]; exact tr_assigned hb.1
  · rw [hi.root v ha h2] at hq; simp [antecedents] at hq

theorem redLoop_fuel {db : Cdb} {s : Stk} (hi : Inv db s) {levels : Nat → Bool} : ∀ {n : Nat} {a : Red}, (∀ l ∈ a.stack, s.assign l.var ≠ none) →
    a.stack.length + unseen s.trail a.seen ≤ n → redLoop db s levels n a ≠ .fuel
  | 0, a, _, hn => by
    unfold redLoop
    rw [if_pos (List.eq_nil_of_length_eq_zero (by omega))]; simp
  | n + 1, a, ha, hn => by
    unfold redLoop
    split
    · simp
    rename_i sl st e
    split
    · simp
    rename_i a1 e1
    have hsl := ha sl (by rw [e]; simp)
    obtain ⟨h1, h2⟩ := redLits_size (fun q hq hl => by
      by_contra hc
      have := hi.arch _ (antecedents_assigned hi hsl hq) hc
      omega) e1
    rw [e] at hn
    simp only [List.length_cons] at h1 hn
    refine redLoop_fuel hi (fun l hl => ?_) (by omega)
    rcases h2 l hl with h3 | h3
    · exact ha l (by rw [e]; simp [h3])
    · exact antecedents_assigned hi hsl h3

theorem isRedundant_some {db : Cdb} {s : Stk} (hi : Inv db s) {levels seen : Nat → Bool} {clear : Cls} {l : Lit} (ha : s.assign l.var ≠ none) :
    isRedundant db s levels seen clear l ≠ none := by
  unfold isRedundant
  have hr : s.reason l.var ≠ .none := by
    rcases Inv.reason_of_assigned hi ha with ⟨pre, t, post, e, hv, h1, h2⟩ | ⟨h1, h2⟩
    · rw [← hv]; intro e; unfold ReasonOK at h2; rw [e] at h2; exact h2
    · rw [hi.root _ ha h2]; simp
  have hf := redLoop_fuel hi (levels := levels) (n := s.trail.length + 1) (a := { stack := [l], seen := seen, clear := clear }) (by simpa using ha) (by
    have : unseen s.trail seen ≤ s.trail.length := List.countP_le_length
    simp only [List.length_cons, List.length_nil]; omega)
  split
  · simp
  · exact absurd ‹_› hr
  · split
    · simp
    · simp
    · exact absurd ‹_› hf

theorem retainLoop_some {db : Cdb} {s : Stk} (hi : Inv db s) {levels : Nat → Bool} : ∀ {ls : Cls} {seen : Nat → Bool} {clear : Cls},
    (∀ l ∈ ls, s.assign l.var ≠ none) → retainLoop db s levels ls seen clear ≠ none
  | [], _, _, _ => by simp [retainLoop]
  | l :: ls, seen, clear, h => by
    unfold retainLoop
    split
    · exact absurd ‹_› (isRedundant_some hi (h l (by simp)))
    split
    · exact absurd ‹_› (retainLoop_some hi (fun x hx => h x (by simp [hx])))
    · simp

/-- The analysis of a conflict that involves the current level finds a clause. -/
theorem conflictAnalyze_some {db : Cdb} {s : Stk} (hi : Inv db s) (hd : 0 < s.dl) {l : Lit} {r : Reason} (hc : ConfOK db s l r) (ht : Top db s l r) :
    conflictAnalyze db s l r ≠ none := by
  obtain ⟨i1, i2, i3, i4⟩ := ana0_spec hi hd hc
  obtain ⟨c1, c2, c3⟩ := conf_sign hc
  have hcnt : 0 < (ana0 db s l r).cnt := by
    have key : ∀ v, s.assign v ≠ none → s.level v = s.dl → (ana0 db s l r).seen v = true → 0 < (ana0 db s l r).cnt := by
      intro v ha hl hs
      rw [i1.cnt]
      have hv : v ∈ s.trail.map Lit.var := by
        by_contra hc; have := hi.arch v ha hc; omega
      obtain ⟨t, ht, rfl⟩ := List.mem_map.1 hv
      have : 0 < s.trail.reverse.countP (lvSeen s s.dl (ana0 db s l r).seen) :=
        List.countP_pos_iff.2 ⟨t, List.mem_reverse.2 ht, by simp [lvSeen, hs, hl]⟩
      omega
    rcases ht with h | ⟨q, hq, h⟩
    · exact key l.var (by simpa using tr_assigned c2) h i2
    · refine key q.var (c3 q hq) h ((i3 q hq).resolve_left (by omega))
  unfold conflictAnalyze
  simp only []
  split
  · rename_i e; exact absurd e (loop_some hi hd (post := []) (by simp) i1 hcnt)
  · rename_i p a e
    obtain ⟨p1, p2, p3, p4, p5, p6⟩ := loop_spec hi hd (post := []) (by simp) i1 i4 e
    unfold minimizeLearnt
    simp only []
    split
    · rename_i e2
      refine absurd e2 (retainLoop_some hi fun x hx => ?_)
      have := tr_assigned (p3 x hx).1; simpa using this
    · simp

/-- `handle_conflict` does not panic. -/
theorem handle_ends {db : Cdb} {s : Stk} (h : PInv db s) (hd : 0 < s.dl) {low : Nat → Bool} {rr : Option Nat} {drift : Bool}
    {l : Lit} {r : Reason} (hc : ConfOK db s l r) (ht : Top db s l r) : handleConflict db s low rr drift l r ≠ .panic := by
  have := handleConflict_spec (low := low) (rr := rr) (drift := drift) h hd hc
  intro e
  rw [e] at this
  exact conflictAnalyze_some h.inv hd hc ht this

/-! ## what keeps `Nz` -/

theorem Nz.nil {Z : Lit → Prop} {db : Cdb} {s : Stk} (hr : ∀ w, Z w → Root s w.neg) (hs : s.saved = []) : Nz Z db s :=
  ⟨hr, by rw [hs]; simp, by rw [hs]; simp⟩

theorem Nz.cancelUntil {Z : Lit → Prop} {db : Cdb} {s : Stk} (h : Nz Z db s) (hi : Inv db s) (low : Nat → Bool) (lv : Nat) :
    Nz Z db (s.cancelUntil low lv) := by
  by_cases hl : s.dl ≤ lv
  · rw [cancelUntil_noop hl]; exact h
  obtain ⟨h1, h2⟩ := cancelUntil_saved (s := s) (low := low) (lv := lv) (by omega)
  have hm : ∀ l ∈ (s.cancelUntil low lv).saved, l ∈ s.trail := by
    intro l hl
    rcases h1 with e | e
    · rw [e] at hl; simp at hl
    · rw [e] at hl; exact List.mem_of_mem_drop (List.mem_of_mem_take hl)
  have hz : ∀ l ∈ (s.cancelUntil low lv).saved, ¬ Z l := fun l hl hz => tr_not_neg (hi.tv l (hm l hl)) (h.root l hz).1
  refine ⟨fun w hw => ?_, hz, fun l hl cid e => ?_⟩
  · obtain ⟨a, b⟩ := h.root w hw
    refine ⟨?_, by rw [cancelUntil_level]; exact b⟩
    unfold Stk.tr at *; rw [cancelUntil_assign hi, if_pos (by omega)]; exact a
  · rw [h2 l.var (List.mem_map_of_mem hl)] at e
    obtain ⟨pre, post, ht⟩ := List.append_of_mem (hm l hl)
    have := hi.rs _ _ _ ht
    unfold ReasonOK at this
    rw [e] at this
    obtain ⟨rest, hc, -⟩ := this
    exact ⟨l, by rw [hc]; simp [W2], hz l hl⟩

theorem Nz.keep {Z : Lit → Prop} {db db' : Cdb} {s s' : Stk} (h : Nz Z db s) (hr : ∀ l, Root s l → Root s' l)
    (hs : s'.saved = [] ∨ s'.saved = s.saved ∧ s'.reasonSaved = s.reasonSaved)
    (hc : ∀ i, (db.clause i).lits ≠ [] → (db'.clause i).lits = (db.clause i).lits) : Nz Z db' s' := by
  rcases hs with hs | ⟨h1, h2⟩
  · exact Nz.nil (fun w hw => hr _ (h.root w hw)) hs
  · refine ⟨fun w hw => hr _ (h.root w hw), by rw [h1]; exact h.lit, fun l hl cid e => ?_⟩
    rw [h1] at hl; rw [h2] at e
    obtain ⟨w, w1, w2⟩ := h.cl l hl cid e
    refine ⟨w, ?_, w2⟩
    rw [hc cid (by rintro e; rw [e] at w1; simp [W2] at w1)]; exact w1

theorem handle_saved {db : Cdb} {s : Stk} {low : Nat → Bool} {rr : Option Nat} {drift : Bool} {l : Lit} {r : Reason} {db' : Cdb} {s' : Stk}
    (e : handleConflict db s low rr drift l r = .ok db' s') :
    ∃ lv, s'.saved = [] ∨ s'.saved = (s.cancelUntil low lv).saved ∧ s'.reasonSaved = (s.cancelUntil low lv).reasonSaved := by
  unfold handleConflict at e
  split at e
  · simp at e
  split at e
  · simp at e
  · simp at e
  · unfold learnUnit at e
    split at e
    · simp at e
    split at e
    · simp at e
    split at e
    · rename_i s1 heq
      cases e
      have := assignRoot_saved (s := s) (low := low) (l := ‹Lit›)
      rw [heq] at this
      exact ⟨0, .inr ⟨this.1, this.2.1⟩⟩
    · simp at e
  · rename_i v lv seen hn0 hn1 ea
    unfold learnClause at e
    simp only [] at e
    split at e
    swap
    · simp at e
    have fields : ∀ (x : Lit) (r : Reason), ((s.cancelUntil low lv).assignImpl x r lv).saved = (s.cancelUntil low lv).saved ∧
        ((s.cancelUntil low lv).assignImpl x r lv).reasonSaved = (s.cancelUntil low lv).reasonSaved := fun x r => by
      obtain ⟨-, -, -, -, -, -, f7, f8, -⟩ := assignImpl_fields (s.cancelUntil low lv) x r lv
      exact ⟨f7, f8⟩
    rename_i l0 l1 tl
    cases hd : (drift && decide (0 < lv) && decide (2 < (l0 :: l1 :: tl).length)) <;> rw [hd] at e <;>
      simp only [Bool.false_eq_true, if_false, if_true] at e
    · refine ⟨lv, .inr ?_⟩
      split at e
      · simp at e
      · cases e; exact fields _ _
      · cases e; exact fields _ _
      · simp at e
    · refine ⟨lv, .inl ?_⟩
      split at e
      · simp at e
      · cases e; rfl
      · cases e; rfl
      · simp at e

theorem Nz.handle {Z : Lit → Prop} {db : Cdb} {s : Stk} (h : Nz Z db s) (hp : PInv db s) (hdm : Dom db s) (hd : 0 < s.dl) {low : Nat → Bool} {rr : Option Nat}
    {drift : Bool} {l : Lit} {r : Reason} (hc : ConfOK db s l r) {db' : Cdb} {s' : Stk} (e : handleConflict db s low rr drift l r = .ok db' s') :
    Nz Z db' s' := by
  have t3 := handle_tr hp hdm hd hc e
  have hg := handleConflict_spec (low := low) (rr := rr) (drift := drift) hp hd hc
  rw [e] at hg
  obtain ⟨v, lv0, seen, -, -, hok⟩ := hg
  obtain ⟨lv, hs⟩ := handle_saved e
  have h1 := h.cancelUntil hp.inv low lv
  have h2 : Nz Z db' (s.cancelUntil low lv) := h1.keep (fun _ h => h) (.inr ⟨rfl, rfl⟩) fun i hi => by
    rcases hok.clauses i with h | h
    · exact h.1
    · exact absurd h.1 hi
  rcases hs with hs | ⟨hs1, hs2⟩
  · exact Nz.nil (fun w hw => t3.root _ (h.root w hw)) hs
  · exact ⟨fun w hw => t3.root _ (h.root w hw), by rw [hs1]; exact h2.lit, by rw [hs1, hs2]; exact h2.cl⟩

theorem selectVar_saved {pick : List Nat → Nat} : ∀ {n : Nat} {s : Stk} {v : Nat} {s1 : Stk}, selectVar pick n s = some (v, s1) →
    s1.saved = [] ∨ s1.saved = s.saved ∧ s1.reasonSaved = s.reasonSaved
  | 0, _, _, _, e => by simp [selectVar] at e
  | n + 1, s, v, s1, e => by
    unfold selectVar at e
    cases hr : s.heapRoot pick with
    | none => rw [hr] at e; simp at e
    | some w =>
      obtain ⟨w, s2⟩ := w
      rw [hr] at e; simp only [] at e
      have h2 : s2.saved = [] ∨ s2.saved = s.saved ∧ s2.reasonSaved = s.reasonSaved := by
        unfold heapRoot at hr
        by_cases hh : s.heap = []
        · rw [if_pos hh] at hr
          simp only [] at hr
          split at hr
          · simp at hr
          · simp only [Option.some.injEq, Prod.mk.injEq] at hr
            rw [← hr.2]; exact .inl rfl
        · rw [if_neg hh] at hr
          simp only [] at hr
          split at hr
          · simp at hr
          · simp only [Option.some.injEq, Prod.mk.injEq] at hr
            rw [← hr.2]; exact .inr ⟨rfl, rfl⟩
      split at e
      · cases e; exact h2
      · rcases selectVar_saved e with h3 | h3
        · exact .inl h3
        · rcases h2 with h2 | h2
          · exact .inl (h3.1.trans h2)
          · exact .inr ⟨h3.1.trans h2.1, h3.2.trans h2.2⟩

theorem Nz.decideStep {Z : Lit → Prop} {o : Orc} {db : Cdb} {s s' : Stk} (h : Nz Z db s) (hr : ∀ l, Root s l → Root s' l) (e : decideStep o s = some s') : Nz Z db s' := by
  unfold Splr.decideStep at e
  split at e
  · cases e; exact h
  split at e
  · simp at e
  · rename_i v s1 hs
    cases e
    exact h.keep hr (show s1.saved = [] ∨ s1.saved = s.saved ∧ s1.reasonSaved = s.reasonSaved from selectVar_saved hs) fun _ _ => rfl

end Splr
