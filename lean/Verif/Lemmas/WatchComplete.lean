import Verif.Lemmas.WatchDb
import Verif.Lemmas.Tr
import Verif.Lemmas.BinComplete
/-! Watched literals: what holds between propagations, and that propagation is complete. -/
namespace Splr
open Stk

/-- One of the first two literals. -/
def W2 (c : Cls) (w : Lit) : Prop := c[0]? = some w ∨ c[1]? = some w

/-- The literal is true and propagation has dealt with it. -/
def Done (s : Stk) (l : Lit) : Prop := s.tr l ∧ l ∉ s.trail.drop s.qhead

/-- The cached literal of an entry belongs to the clause, or has been removed from it because it is false at the root level. -/
def Cache (db : Cdb) (s : Stk) : Prop := ∀ p i b, (i, b) ∈ db.watch p → b ∈ (db.clause i).lits ∨ Root s b.neg

/-- A clause with a watched literal that has been propagated as false has a literal that was true by then; `E`: exceptions. -/
structure Wt (E : Nat → Lit → Prop) (db : Cdb) (s : Stk) : Prop where
  cache : Cache db s
  cur : ∀ k ∈ s.lim, k ≤ s.qhead
  wat : ∀ i w, W2 (db.clause i).lits w → Done s w.neg → ¬ E i w → ∃ t ∈ (db.clause i).lits, s.tr t ∧ s.level t.var ≤ s.level w.var

/-- No exceptions. -/
abbrev No : Nat → Lit → Prop := fun _ _ => False

/-- What a propagation leaves behind. -/
def PRes.Wt : PRes → Prop
  | .ok db s => Splr.Wt No db s
  | .conflict db s _ _ => Splr.Wt (fun _ w => s.dl ≤ s.level w.var) db s
  | _ => True

/-- The same; watched literals in `Z` are exceptions. -/
def PRes.WtB (Z : Lit → Prop) : PRes → Prop
  | .ok db s => Splr.Wt (fun _ w => Z w) db s
  | .conflict db s _ _ => Splr.Wt (fun _ w => Z w ∨ s.dl ≤ s.level w.var) db s
  | _ => True

theorem Wt.weaken {E E' : Nat → Lit → Prop} {db : Cdb} {s : Stk} (h : Wt E db s)
    (he : ∀ i w, W2 (db.clause i).lits w → Done s w.neg → E i w → ¬ E' i w → ∃ t ∈ (db.clause i).lits, s.tr t ∧ s.level t.var ≤ s.level w.var) : Wt E' db s := by
  refine ⟨h.cache, h.cur, fun i w h1 h2 h3 => ?_⟩
  by_cases e : E i w
  · exact he i w h1 h2 e h3
  · exact h.wat i w h1 h2 e

theorem Wt.mono {E E' : Nat → Lit → Prop} {db : Cdb} {s : Stk} (h : Wt E db s) (he : ∀ i w, E i w → E' i w) : Wt E' db s :=
  h.weaken fun i w _ _ e n => absurd (he i w e) n

/-- The stack changes only in fields that do not matter here. -/
theorem Wt.stkEq {E : Nat → Lit → Prop} {db : Cdb} {s s' : Stk} (h : Wt E db s) (h1 : s'.assign = s.assign) (h2 : s'.level = s.level)
    (h3 : s'.trail = s.trail) (h4 : s'.qhead = s.qhead) (h5 : s'.lim = s.lim) : Wt E db s' := by
  obtain ⟨a, b, c⟩ := h
  refine ⟨?_, ?_, ?_⟩
  · unfold Cache Root Stk.tr at *; rw [h1, h2]; exact a
  · rw [h4, h5]; exact b
  · unfold Done Stk.tr at *; rw [h1, h2, h3, h4]; exact c

/-- A literal is assigned. -/
theorem Wt.push {E : Nat → Lit → Prop} {db : Cdb} {s s' : Stk} {l : Lit} {lv : Nat} (h : Wt E db s) (hq : s.qhead ≤ s.trail.length)
    (hn : s.assign l.var = none) (h1 : s'.assign = upd s.assign l.var (some l.pos)) (h2 : s'.level = upd s.level l.var lv)
    (h3 : s'.trail = s.trail ++ [l]) (h4 : s'.qhead = s.qhead) (h5 : ∀ k ∈ s'.lim, k ≤ s.qhead) : Wt E db s' := by
  have old : ∀ m, s.tr m → s'.tr m ∧ s'.level m.var = s.level m.var := by
    intro m hm
    have hne : m.var ≠ l.var := fun e => tr_assigned hm (by rw [e]; exact hn)
    exact ⟨tr_upd hn h1 hm, by rw [h2, upd_of_ne _ _ hne]⟩
  have hlt : s'.tr l := by unfold Stk.tr; rw [h1]; simp
  refine ⟨fun p i b hb => (h.cache p i b hb).imp id fun hr => ⟨(old _ hr.1).1, by rw [(old _ hr.1).2]; exact hr.2⟩, by rw [h4]; exact h5, ?_⟩
  intro i w hw ⟨d1, d2⟩ hE
  rw [h3, h4, List.drop_append_of_le_length hq] at d2
  have hne : w.neg.var ≠ l.var := fun e => d2 (by rw [tr_var d1 hlt e]; simp)
  have hs : s.tr w.neg := by unfold Stk.tr at *; rw [h1, upd_of_ne _ _ hne] at d1; exact d1
  obtain ⟨t, t1, t2, t3⟩ := h.wat i w hw ⟨hs, fun hm => d2 (by simp [hm])⟩ hE
  refine ⟨t, t1, (old t t2).1, ?_⟩
  rw [(old t t2).2, show w.var = w.neg.var from (Lit.neg_var w).symm, (old _ hs).2]; exact t3

theorem Wt.imply {E : Nat → Lit → Prop} {db : Cdb} {s : Stk} (h : Wt E db s) (hi : Inv db s) {l : Lit} (hn : s.assign l.var = none) (r : Reason) (lv : Nat) :
    Wt E db (s.assignImpl l r lv) := by
  obtain ⟨f1, f2, f3, f4, f5, f6, f7, f8, f9, f10⟩ := assignImpl_fields s l r lv
  exact h.push hi.qh hn f1 f2 f4 f6 (by rw [f5]; exact h.cur)

/-- The next literal of the trail. -/
theorem Wt.advance {Z : Lit → Prop} {db : Cdb} {s : Stk} (h : Wt (fun _ w => Z w) db s) {p : Lit} (hp : s.trail[s.qhead]? = some p) :
    Wt (fun _ w => Z w ∨ w = p.neg) db { s with qhead := s.qhead + 1 } := by
  refine ⟨h.cache, fun k hk => by have := h.cur k hk; simp only []; omega, fun i w hw ⟨d1, d2⟩ hE => ?_⟩
  refine h.wat i w hw ⟨d1, fun hm => ?_⟩ (fun h => hE (.inl h))
  obtain ⟨hlt, he⟩ := List.getElem?_eq_some_iff.1 hp
  rw [List.drop_eq_getElem_cons hlt] at hm
  rcases List.mem_cons.1 hm with e | hm
  · exact hE (.inr (by rw [← he, ← e]; simp))
  · exact d2 hm

/-- The literal to be propagated belongs to the current level. -/
theorem level_pending {db : Cdb} {s : Stk} (hi : Inv db s) (hc : ∀ k ∈ s.lim, k ≤ s.qhead) {i : Nat} (hq : s.qhead ≤ i) {p : Lit} (hp : s.trail[i]? = some p) :
    s.level p.var = s.dl := by
  obtain ⟨hlt, he⟩ := List.getElem?_eq_some_iff.1 hp
  have e : s.trail = s.trail.take i ++ p :: s.trail.drop (i + 1) := by
    rw [← he, List.getElem_cons_drop hlt, List.take_append_drop]
  rw [hi.lev _ _ _ e]
  unfold Stk.dl
  rw [List.countP_eq_length]
  intro k hk
  have := hc k hk
  simp only [List.length_take, decide_eq_true_eq]; omega

theorem level_le {db : Cdb} {s : Stk} (hi : Inv db s) {t : Lit} (ht : s.tr t) : s.level t.var ≤ s.dl := Inv.level_le hi (tr_assigned ht)

/-- After the binary clauses of `p`. -/
theorem binLoop_wt {E : Nat → Lit → Prop} {p : Lit} {db : Cdb} : ∀ {bs : List (Lit × Nat)} {s : Stk}, RInv db s → s.tr p → (∀ x ∈ bs, BinC db x.1 p.neg) → Wt E db s →
    (binLoop p db bs s).All fun db' s' => Wt E db' s' ∧ db' = db ∧ s'.dl = s.dl ∧ RInv db' s' ∧ s'.tr p ∧ s'.level p.var = s.level p.var
  | [], s, hi, hp, _, h => ⟨h, rfl, rfl, hi, hp, rfl⟩
  | (b, c) :: bs, s, hi, hp, hb, h => by
    have hb' : ∀ x ∈ bs, BinC db x.1 p.neg := fun x hx => hb x (by simp [hx])
    unfold binLoop
    cases hv : s.val b with
    | none =>
      have hn := val_none.1 hv
      have hbc := hb (b, c) (by simp)
      have st : PStep db s db (s.assignImpl b (.binary p) s.dl) := .imply b _ hn ⟨hbc, hp⟩
      have hx := (PSteps.one st).allR hi
      refine (binLoop_wt hx.1 (hx.2.2.tr p hp) hb' (h.imply hi.inv hn _ _)).mono ?_
      rintro db1 s1 ⟨a1, a2, a3, a4, a5, a6⟩
      refine ⟨a1, a2, a3.trans ?_, a4, a5, a6.trans (hx.2.2.level _ (tr_assigned hp))⟩
      exact congrArg List.length hx.2.2.lim
    | some v => cases v with
      | true => exact binLoop_wt hi hp hb' h
      | false => exact ⟨h, rfl, rfl, hi, hp, rfl⟩

theorem mem_drop_fst {w : List (Nat × Lit)} {idx : Nat} (hlt : idx < w.length) {i : Nat} {b : Lit}
    (h : (i, b) ∈ w.drop idx) : (i = w[idx].1) ∨ (i, b) ∈ w.drop (idx + 1) := by
  rw [List.drop_eq_getElem_cons hlt] at h
  rcases List.mem_cons.1 h with e | h
  · left; rw [← e]
  · exact .inr h

/-- the entries still to be visited after the removal of the entry at `idx` -/
theorem drop_swapRemove {w : List (Nat × Lit)} {idx : Nat} (hlt : idx < w.length) {x : Nat × Lit} (h : x ∈ w.drop (idx + 1)) :
    x ∈ (swapRemove w idx).drop idx := by
  obtain ⟨j, hj, e⟩ := List.mem_iff_getElem.1 h
  simp only [List.length_drop] at hj
  rw [List.getElem_drop] at e
  unfold swapRemove
  have hne : w ≠ [] := by rintro rfl; simp at hlt
  rw [List.getLast?_eq_some_getLast hne]
  simp only []
  rw [List.mem_iff_getElem]
  by_cases hl : idx + 1 + j = w.length - 1
  · refine ⟨0, by simp; omega, ?_⟩
    rw [List.getElem_drop, List.getElem_dropLast, List.getElem_set]
    simp only [Nat.add_zero, if_true]
    rw [List.getLast_eq_getElem, ← e]; congr 1; omega
  · refine ⟨j + 1, by simp; omega, ?_⟩
    rw [List.getElem_drop, List.getElem_dropLast, List.getElem_set]
    rw [if_neg (by omega), ← e]; congr 1; omega

theorem W2.iff {a b : Lit} {tl : Cls} {w : Lit} : W2 (a :: b :: tl) w ↔ w = a ∨ w = b := by
  unfold W2; simp [eq_comm]

theorem W2.of_pos {c : Cls} {pos : Nat} (h : pos ≤ 1) {w : Lit} : W2 c w ↔ c[pos]? = some w ∨ c[1 - pos]? = some w := by
  have : pos = 0 ∨ pos = 1 := by omega
  rcases this with rfl | rfl
  · rfl
  · exact or_comm

theorem restore_drop {db : Cdb} {p : Lit} {idx : Nat} {op : Option Lit} {x : Nat × Lit} (h : x ∈ ((db.restoreWatch p idx op).watch p).drop (idx + 1)) :
    x ∈ (db.watch p).drop (idx + 1) := by
  unfold Cdb.restoreWatch at h
  split at h
  · exact h
  · simp only [upd_same] at h
    rwa [List.drop_modify_of_lt _ _ _ _ (Nat.lt_succ_self _)] at h

theorem restore_drop' {db : Cdb} {p : Lit} {idx : Nat} {op : Option Lit} {x : Nat × Lit} (h : x ∈ (db.watch p).drop (idx + 1)) :
    x ∈ ((db.restoreWatch p idx op).watch p).drop (idx + 1) := by
  unfold Cdb.restoreWatch
  split
  · exact h
  · simp only [upd_same]
    rwa [List.drop_modify_of_lt _ _ _ _ (Nat.lt_succ_self _)]

theorem restore_sub {db : Cdb} {p m : Lit} {idx cid : Nat} {c b : Lit} {op : Option Lit} (hi : (db.watch p)[idx]? = some (cid, c)) {i : Nat}
    (h : (i, b) ∈ (db.restoreWatch p idx op).watch m) : (i, b) ∈ db.watch m ∨ (i = cid ∧ op = some b) := by
  unfold Cdb.restoreWatch at h
  split at h
  · exact .inl h
  · rename_i o
    simp only [upd_apply] at h
    split at h
    · rename_i e; subst e
      obtain ⟨j, hj, e⟩ := List.mem_iff_getElem.1 h
      rw [List.getElem_modify] at e
      split at e
      · rename_i ej; subst ej
        rw [List.length_modify] at hj
        have hx := List.getElem?_eq_getElem hj
        rw [hi] at hx
        have hx := Option.some.inj hx
        rw [← hx] at e
        obtain ⟨rfl, rfl⟩ := Prod.mk.inj e
        exact .inr ⟨rfl, rfl⟩
      · left; rw [← e]; exact List.getElem_mem _
    · exact .inl h

/-- The database changes, not the assignment: the clauses keep their literals, perhaps in another order. -/
theorem Wt.ofDb {E E' : Nat → Lit → Prop} {db db' : Cdb} {s : Stk} (h : Wt E db s) (hm : ∀ i x, x ∈ (db'.clause i).lits ↔ x ∈ (db.clause i).lits)
    (hc : ∀ p i b, (i, b) ∈ db'.watch p → (i, b) ∈ db.watch p ∨ b ∈ (db.clause i).lits)
    (hw : ∀ i w, W2 (db'.clause i).lits w → Done s w.neg → ¬ E' i w → (W2 (db.clause i).lits w ∧ ¬ E i w) ∨
      ∃ t ∈ (db.clause i).lits, s.tr t ∧ s.level t.var ≤ s.level w.var) : Wt E' db' s := by
  refine ⟨fun p i b hb => ?_, h.cur, fun i w h1 h2 h3 => ?_⟩
  · rcases hc p i b hb with hb | hb
    · exact (h.cache p i b hb).imp (hm i b).2 id
    · exact .inl ((hm i b).2 hb)
  · rcases hw i w h1 h2 h3 with ⟨a, b⟩ | ⟨t, t1, t2⟩
    · obtain ⟨t, t1, t2⟩ := h.wat i w a h2 b
      exact ⟨t, (hm i t).2 t1, t2⟩
    · exact ⟨t, (hm i t).2 t1, t2⟩

/-- The entries of `p` from `idx` on are still to be visited. -/
def Pend (db : Cdb) (p : Lit) (idx : Nat) : Nat → Lit → Prop := fun i w => w = p.neg ∧ ∃ b, (i, b) ∈ (db.watch p).drop idx

set_option maxHeartbeats 1000000 in
theorem watchLoop_wtB {Z : Lit → Prop} {sandbox : Bool} {p : Lit} : ∀ {n idx : Nat} {db : Cdb} {s : Stk}, RInv db s → s.tr p → s.level p.var = s.dl →
    idx + n = (db.watch p).length → Wt (fun i w => Z w ∨ Pend db p idx i w) db s → (watchLoop sandbox p n idx db s).WtB Z
  | 0, idx, db, s, _, _, _, hlen, h => by
    refine h.mono fun i w => ?_
    rintro (hB | ⟨_, b, hb⟩)
    · exact hB
    rw [List.drop_eq_nil_of_le (by omega)] at hb
    simp at hb
  | n + 1, idx, db, s, hi, hp, hlv, hlen, h => by
    unfold watchLoop
    have hlt : idx < (db.watch p).length := by omega
    rw [List.getElem?_eq_getElem hlt]
    obtain ⟨cid, cached, he⟩ : ∃ cid cached, (db.watch p)[idx] = (cid, cached) := ⟨_, _, rfl⟩
    have hge : (db.watch p)[idx]? = some (cid, cached) := by rw [List.getElem?_eq_getElem hlt, he]
    have hmem : (cid, cached) ∈ db.watch p := by rw [← he]; exact List.getElem_mem _
    have hlp : s.level p.neg.var = s.dl := by rw [Lit.neg_var]; exact hlv
    have hnext : ∀ {i : Nat} {b : Lit}, (i, b) ∈ (db.watch p).drop idx → i = cid ∨ (i, b) ∈ (db.watch p).drop (idx + 1) := by
      intro i b hb
      have := mem_drop_fst hlt hb
      rwa [he] at this
    -- the clause has a true literal
    have hdone : (∃ t ∈ (db.clause cid).lits, s.tr t) → Wt (fun i w => Z w ∨ Pend db p (idx + 1) i w) db s := by
      rintro ⟨t, t1, t2⟩
      refine h.weaken fun i w h1 h2 h3 h4 => ?_
      rcases h3 with hB | ⟨e, b, hb⟩
      · exact absurd (.inl hB) h4
      rcases hnext hb with rfl | hb
      · exact ⟨t, t1, t2, by rw [e, hlp]; exact level_le hi.inv t2⟩
      · exact absurd (.inr ⟨e, b, hb⟩) h4
    have hcin : s.tr cached → ∃ t ∈ (db.clause cid).lits, s.tr t := by
      intro ht
      rcases h.cache p cid cached hmem with hc | hc
      · exact ⟨_, hc, ht⟩
      · exact absurd hc.1 (tr_not_neg ht)
    rw [he]
    simp only []
    split
    · rename_i hz'
      have hz := (((hi.wf).wIff p cid).1 ⟨cached, hmem⟩).1
      simp only [Bool.and_eq_true, Cl.dead, List.isEmpty_iff] at hz'
      rw [hz'.2] at hz; simp at hz
    split
    · rename_i hz
      exact watchLoop_wtB hi hp hlv (by omega) (hdone (hcin (val_true.1 hz)))
    rename_i hcn
    have hW : Watched (db.clause cid).lits p := ((hi.wf).wIff p cid).1 ⟨cached, hmem⟩
    split
    swap
    · rename_i hc; exfalso
      have h3 := hW.1
      match hl : (db.clause cid).lits, h3 with
      | l0 :: l1 :: tl, _ => exact hc _ _ _ hl
    rename_i l0 l1 tl hl
    rw [hl] at hW
    obtain ⟨wp1, wp2⟩ := watch_pos hW
    set other := if p.neg = l1 then l0 else l1 with hother
    set pos := (if p.neg = l1 then 1 else 0 : Nat) with hpos
    have hple : pos ≤ 1 := by rw [hpos]; split <;> omega
    have homem : other ∈ (db.clause cid).lits := by rw [hl]; exact List.mem_of_getElem? wp2
    have hrl : ∀ (d : Cdb) op, d.watch p = db.watch p → ((d.restoreWatch p idx op).watch p).length = (db.watch p).length := by
      intro d op hd; unfold Cdb.restoreWatch; split
      · rw [hd]
      · simp [upd, hd]
    split
    · rename_i hz
      have st : PStep db s (db.restoreWatch p idx (some other)) s := .restore _ _ _
      have hx := (PSteps.one st).allR hi
      have hcl := (Cdb.same_restoreWatch db p idx (some other)).1
      refine watchLoop_wtB hx.1 hp hlv (by rw [hrl db _ rfl]; omega) ?_
      refine (hdone ⟨other, homem, val_true.1 hz.2⟩).ofDb (fun i x => by rw [hcl]) (fun m i b hb => ?_) (fun i w h1 h2 h3 => .inl ⟨by rw [hcl] at h1; exact h1, fun h4 => h3 ?_⟩)
      · rcases restore_sub hge hb with hb | ⟨rfl, e⟩
        · exact .inl hb
        · exact .inr (by rw [← Option.some.inj e]; exact homem)
      · exact h4.imp id fun h4 => ⟨h4.1, h4.2.choose, restore_drop' h4.2.choose_spec⟩
    rename_i hno
    have hot : ¬ s.tr other := by
      intro ht
      by_cases e : cached = other
      · rw [e] at hcn; exact hcn (val_true.2 ht)
      · exact hno ⟨e, val_true.2 ht⟩
    cases hord : Scan.order (l0 :: l1 :: tl).length (db.clause cid).searchFrom with
    | none =>
      exfalso; unfold Scan.order at hord; have := (hi.wf).sf cid; split at hord
      · omega
      · simp at hord
    | some ks =>
      simp only []
      cases hf : ks.find? (fun k => ((l0 :: l1 :: tl)[k]?.bind s.val) != some false) with
      | some k =>
        simp only []
        have hkm := List.mem_of_find?_eq_some hf
        obtain ⟨k2, klt⟩ := order_mem hord hkm
        split
        · trivial
        · rename_i h2
          have hk : (db.clause cid).lits[k]? = some ((l0 :: l1 :: tl)[k]) := by rw [hl]; exact List.getElem?_eq_getElem klt
          have ha : (db.clause cid).lits[pos]? = some p.neg := by rw [hl]; exact wp1
          have hb : (db.clause cid).lits[1 - pos]? = some other := by rw [hl]; exact wp2
          have hkf : ¬ s.tr ((l0 :: l1 :: tl)[k]).neg := by
            have := List.find?_some hf
            simp only [List.getElem?_eq_getElem klt, Option.bind_some, bne_iff_ne, ne_eq] at this
            exact fun h => this (val_false.2 h)
          have st : PStep db s _ s := .move p idx cid pos k (nextSf sandbox k) cached _ other hge hple ha hb k2 hk (by omega) hp hot hkf
          have hx := (PSteps.one st).allR hi
          have hm := Cdb.moveWatch_spec hi.wf hge hple ha hb k2 hk (sf := nextSf sandbox k) (by omega)
          refine watchLoop_wtB hx.1 hp hlv ?_ ?_
          · rw [hm.2.2.2.2.1, (swapRemove_perm _ _ hlt).length_eq, List.length_eraseIdx_of_lt hlt]; omega
          have hsw := Cdb.swapAt_watched hple k2 ha hb hk
          have hnf : ¬ s.tr ((l0 :: l1 :: tl)[k]).neg := by
            intro hfalse
            have := List.find?_some hf
            rw [List.getElem?_eq_getElem klt] at this
            simp only [Option.bind_some, bne_iff_ne, ne_eq] at this
            exact this (val_false.2 hfalse)
          refine h.ofDb (fun i x => ?_) (fun m i b hb' => ?_) (fun i w h1 h2 h3 => .inl ?_)
          · rw [hm.2.1]; unfold upd; split
            · rename_i e; subst e; exact (Cdb.swapAt_perm _ _ _).mem_iff
            · rfl
          · by_cases e1 : m = ((l0 :: l1 :: tl)[k]).neg
            · rw [e1, hm.2.2.2.2.2.1] at hb'
              rcases List.mem_append.1 hb' with hb' | hb'
              · exact .inl (e1 ▸ hb')
              · simp at hb'; obtain ⟨rfl, rfl⟩ := hb'; exact .inr homem
            by_cases e2 : m = p
            · rw [e2, hm.2.2.2.2.1] at hb'
              have := (swapRemove_perm _ _ hlt).mem_iff.1 hb'
              exact .inl (e2 ▸ List.mem_of_mem_eraseIdx this)
            · rw [hm.2.2.1 m e1 e2] at hb'; exact .inl hb'
          · by_cases e : i = cid
            · subst e
              rw [hm.2.1, upd_same] at h1
              have hw : w = (l0 :: l1 :: tl)[k] ∨ w = other := by
                rcases (W2.of_pos hple).1 h1 with hh | hh
                · rw [hsw.1] at hh; exact .inl (Option.some.inj hh).symm
                · rw [hsw.2] at hh; exact .inr (Option.some.inj hh).symm
              rcases hw with rfl | rfl
              · exact absurd h2.1 hnf
              · refine ⟨?_, fun h4 => ?_⟩
                · exact (W2.of_pos hple).2 (.inr hb)
                · rcases h4 with hB | h4
                  · exact h3 (.inl hB)
                  have hnd := Cdb.nodup_of_map_var (hi.wf.nd i)
                  obtain ⟨p1, q1⟩ := List.getElem?_eq_some_iff.1 ha
                  obtain ⟨p2, q2⟩ := List.getElem?_eq_some_iff.1 hb
                  have := (hnd.getElem_inj_iff (hi := p1) (hj := p2)).1 (by rw [q1, q2, h4.1])
                  omega
            · rw [hm.2.1, upd_of_ne _ _ e] at h1
              refine ⟨h1, fun h4 => h3 (h4.imp id fun h4 => ⟨h4.1, ?_⟩)⟩
              obtain ⟨b, hb'⟩ := h4.2
              rcases hnext hb' with e' | hb'
              · exact absurd e' e
              · exact ⟨b, by rw [hm.2.2.2.2.1]; exact drop_swapRemove hlt hb'⟩
      | none =>
        simp only []
        have htl := all_false_of_find hord hf
        have hne : tl ≠ [] := by rintro rfl; have := hW.1; simp at this
        obtain ⟨l2, tl', rfl⟩ := List.exists_cons_of_ne_nil hne
        generalize hdb1 : (if pos = 0 then db.swapWatch cid else db).restoreWatch p idx (if cached ≠ other then some other else none) = db1
        have hcl : db1.clause = (if pos = 0 then db.swapWatch cid else db).clause := by rw [← hdb1]; exact (Cdb.same_restoreWatch _ p idx _).1
        have key : PSteps db s db1 s ∧ (db1.clause cid).lits = other :: p.neg :: l2 :: tl' := by
          rw [hcl, ← hdb1]
          by_cases e : p.neg = l1
          · have e1 : pos = 1 := by rw [hpos, if_pos e]
            have e2 : other = l0 := by rw [hother, if_pos e]
            simp only [e1, Nat.one_ne_zero, if_false]
            exact ⟨.one (.restore _ _ _), by rw [hl, e2, e]⟩
          · have e1 : pos = 0 := by rw [hpos, if_neg e]
            have e2 : other = l1 := by rw [hother, if_neg e]
            simp only [e1, if_true]
            have e3 : l0 = p.neg := by rw [e1] at wp1; simpa using wp1
            refine ⟨.cons (.swap cid l0 l1 l2 tl' hl (by rw [e3]; simpa using hp)) (.one (.restore _ _ _)), ?_⟩
            simp [Cdb.swapWatch, Cdb.setC, upd, hl, swapAt, e2, e3]
        have key5 : (if pos = 0 then db.swapWatch cid else db).watch = db.watch := by split <;> rfl
        have key3 : (db1.watch p).length = (db.watch p).length := by rw [← hdb1, hrl _ _ (by rw [key5])]
        have key4 : ∀ i, i ≠ cid → (db1.clause i).lits = (db.clause i).lits := by
          intro i hne
          rw [hcl]
          split
          · simp [Cdb.swapWatch, Cdb.setC, upd, hne]
          · rfl
        obtain ⟨key1, key2⟩ := key
        have hswap : l0 :: l1 :: l2 :: tl' = other :: p.neg :: l2 :: tl' ∨ l0 :: l1 :: l2 :: tl' = p.neg :: other :: l2 :: tl' := by
          by_cases e : p.neg = l1
          · left; rw [hother, if_pos e, e]
          · right; rw [hother, if_neg e]
            have e1 : pos = 0 := by rw [hpos, if_neg e]
            rw [e1] at wp1; simp at wp1; rw [wp1]
        have key8 : ∀ {m i b}, (i, b) ∈ db1.watch m → (i, b) ∈ db.watch m ∨ b ∈ (db.clause i).lits := by
          intro m i b hb
          rw [← hdb1] at hb
          have hge' : ((if pos = 0 then db.swapWatch cid else db).watch p)[idx]? = some (cid, cached) := by rw [key5]; exact hge
          rcases restore_sub hge' hb with hb | ⟨rfl, e⟩
          · rw [key5] at hb; exact .inl hb
          · split at e
            · exact .inr (by rw [← Option.some.inj e]; exact homem)
            · simp at e
        have key7 : ∀ x, x ∈ (db.watch p).drop (idx + 1) → x ∈ (db1.watch p).drop (idx + 1) := by
          intro x hx
          rw [← hdb1]
          exact restore_drop' (by rw [key5]; exact hx)
        clear_value pos other
        clear hdb1 hcl key5
        -- the clauses and the entries afterwards
        have key6 : Wt (fun i w => Z w ∨ Pend db p (idx + 1) i w ∨ (i = cid ∧ w = p.neg)) db1 s := by
          refine h.ofDb (fun i x => ?_) (fun m i b hb => key8 hb) (fun i w h1 h2 h3 => .inl ?_)
          · by_cases e : i = cid
            · subst e; rw [key2, hl]; rcases hswap with e | e <;> rw [e]
              simp only [List.mem_cons]; tauto
            · rw [key4 i e]
          · by_cases e : i = cid
            · subst e
              rw [key2, W2.iff] at h1
              refine ⟨?_, fun h4 => h3 (h4.imp id fun h4 => .inr ⟨rfl, h4.1⟩)⟩
              rw [hl]; rcases hswap with e | e <;> rw [e, W2.iff]
              · exact h1
              · exact h1.symm
            · rw [key4 i e] at h1
              refine ⟨h1, fun h4 => h3 (h4.imp id fun h4 => .inl ⟨h4.1, ?_⟩)⟩
              obtain ⟨b, hb'⟩ := h4.2
              rcases hnext hb' with e' | hb'
              · exact absurd e' e
              · exact ⟨b, hb'⟩
        have hx := key1.allR hi
        have hpn : s.tr p.neg.neg := by rw [Lit.neg_neg]; exact hp
        split
        · refine key6.mono fun i w => ?_
          rintro (hB | ⟨rfl, _⟩ | ⟨_, rfl⟩)
          · exact .inl hB
          · right; rw [hlp]
          · right; rw [hlp]
        · rename_i hof
          have hn : s.assign other.var = none := by
            rcases tr_cases s other with h | h | h
            · exact absurd h hot
            · exact absurd (val_false.2 h) hof
            · exact h
          have st : PStep db1 s db1 (s.assignImpl other (.impl cid) s.dl) := by
            refine .imply other (.impl cid) hn ⟨_, key2, fun x hx => ?_⟩
            rcases List.mem_cons.1 hx with rfl | hx
            · exact hpn
            · exact htl x hx
          have hy := (PSteps.one st).allR hx.1
          have hlev := hy.2.2.level p.var (tr_assigned hp)
          have hdl : (s.assignImpl other (.impl cid) s.dl).dl = s.dl := congrArg List.length hy.2.2.lim
          refine watchLoop_wtB hy.1 (hy.2.2.tr p hp) (by rw [hlev, hdl]; exact hlv) (by rw [key3]; omega) ?_
          refine (key6.imply hx.1.inv hn _ _).weaken fun i w h1 h2 h3 h4 => ?_
          rcases h3 with hB | ⟨e, b, hb⟩ | ⟨rfl, rfl⟩
          · exact absurd (.inl hB) h4
          · exact absurd (.inr ⟨e, b, key7 _ hb⟩) h4
          · refine ⟨other, by rw [key2]; simp, ?_, ?_⟩
            · unfold Stk.tr; rw [(assignImpl_fields s other (.impl i) s.dl).1]; simp
            · rw [(assignImpl_fields s other (.impl i) s.dl).2.1, upd_same, ← (assignImpl_fields s other (.impl i) s.dl).2.1, Lit.neg_var, hlev, hlv]

theorem PRes.WtB.ofAll {Z : Lit → Prop} {r : PRes} (h : r.All fun db s => Splr.Wt (fun _ w => Z w) db s) : r.WtB Z := by
  cases r <;> first | exact h | exact Splr.Wt.mono h (fun _ _ h => .inl h)

theorem propLit_wtB {Z : Lit → Prop} {sandbox : Bool} {p : Lit} {db : Cdb} {s : Stk} (hi : RInv db s) (hp : s.tr p) (hlv : s.level p.var = s.dl)
    (h : Wt (fun _ w => Z w ∨ w = p.neg) db s) : (propLit sandbox p db s).WtB Z := by
  unfold propLit
  have hbin : ∀ x ∈ db.blist p.neg, BinC db x.1 p.neg := by
    rintro ⟨b, c⟩ hx
    exact ⟨c, ((hi.wf.bIff p.neg b c).1 hx).symm⟩
  have hb := binLoop_wt hi hp hbin h
  cases hr : binLoop p db (db.blist p.neg) s with
  | ok db1 s1 =>
    have hc := binLoop_complete hr
    rw [hr] at hb
    obtain ⟨b1, rfl, b3, b4, b5, b6⟩ := hb
    simp only []
    have hlv1 : s1.level p.var = s1.dl := by rw [b6, b3, hlv]
    refine watchLoop_wtB b4 b5 hlv1 (by simp) (b1.weaken fun i w h1 h2 h3 h4 => ?_)
    rcases h3 with hB | h3
    · exact absurd (.inl hB) h4
    subst h3
    have hlp : ∀ t, s1.tr t → s1.level t.var ≤ s1.level p.neg.var := fun t ht => by rw [Lit.neg_var, hlv1]; exact level_le b4.inv ht
    match hl : (db1.clause i).lits with
    | [] => rw [hl] at h1; rcases h1 with h1 | h1 <;> simp at h1
    | [x] => have := b4.wf.len2 i (by rw [hl]; simp); rw [hl] at this; simp at this
    | [x, y] =>
      rw [hl, W2.iff] at h1
      have he : ∃ t, t ∈ [x, y] ∧ s1.tr t := by
        rcases h1 with rfl | rfl
        · exact ⟨y, by simp, hc.2 (y, i) ((b4.wf.bIff _ _ _).2 (.inl hl))⟩
        · exact ⟨x, by simp, hc.2 (x, i) ((b4.wf.bIff _ _ _).2 (.inr hl))⟩
      obtain ⟨t, t1, t2⟩ := he
      exact ⟨t, t1, t2, hlp t t2⟩
    | x :: y :: z :: tl =>
      exfalso
      refine h4 (.inr ⟨rfl, ?_⟩)
      simp only [List.drop_zero]
      exact (b4.wf.wIff p i).2 ⟨by rw [hl]; simp, h1⟩
  | conflict db1 s1 l r =>
    rw [hr] at hb
    obtain ⟨b1, rfl, b3, b4, b5, b6⟩ := hb
    refine b1.mono fun i w e => e.imp id fun e => ?_
    subst e; rw [Lit.neg_var, b6, b3, hlv]
  | panic => trivial
  | fuel => trivial

theorem reuseLoop_wtB {Z : Lit → Prop} {db : Cdb} {q : Nat} : ∀ {todo : List Lit} {s : Stk}, s.qhead ≤ s.trail.length → Wt (fun _ w => Z w) db s →
    (reuseLoop db q todo s).All fun db' s' => Wt (fun _ w => Z w) db' s'
  | [], s, hq, h => h.stkEq rfl rfl rfl rfl rfl
  | l :: todo, s, hq, h => by
    have put : ∀ r, s.val l = none → (reuseLoop db q todo (s.assignImpl l r s.dl)).All fun db' s' => Wt (fun _ w => Z w) db' s' := by
      intro r hv
      obtain ⟨f1, f2, f3, f4, f5, f6, f7, f8, f9, f10⟩ := assignImpl_fields s l r s.dl
      refine reuseLoop_wtB ?_ (h.push hq (val_none.1 hv) f1 f2 f4 f6 (by rw [f5]; exact h.cur))
      rw [f4, f6]; simp; omega
    have hcl : Wt (fun _ w => Z w) db ({ s with saved := l :: todo } : Stk).clearSaved := h.stkEq rfl rfl rfl rfl rfl
    unfold reuseLoop
    cases hv : s.val l with
    | none =>
      cases s.reasonSaved l.var with
      | none => trivial
      | decision k => exact h.stkEq rfl rfl rfl rfl rfl
      | binary m => exact put _ hv
      | impl cid =>
        simp only []
        split
        · exact h.stkEq rfl rfl rfl rfl rfl
        · exact put _ hv
    | some v =>
      cases v with
      | true => exact reuseLoop_wtB hq h
      | false =>
        cases s.reasonSaved l.var with
        | none => trivial
        | decision k => exact h.stkEq rfl rfl rfl rfl rfl
        | binary m => exact hcl
        | impl cid =>
          simp only []
          split
          · exact hcl
          · trivial

theorem reuse_wtB {Z : Lit → Prop} {db : Cdb} {q : Nat} {s : Stk} (hi : Inv db s) (h : Wt (fun _ w => Z w) db s) : (reuse db q s).All fun db' s' => Wt (fun _ w => Z w) db' s' :=
  reuseLoop_wtB hi.qh h

theorem propLoopSandbox_wtB {Z : Lit → Prop} : ∀ {n : Nat} {db : Cdb} {s : Stk}, RInv db s → Wt (fun _ w => Z w) db s → (propLoopSandbox n db s).WtB Z
  | 0, _, _, _, _ => trivial
  | n + 1, db, s, hi, h => by
    unfold propLoopSandbox
    cases hg : s.trail[s.qhead]? with
    | none => exact h
    | some p =>
      simp only []
      have hx := (advance_step (db := db) hg).allR hi
      have hp : ({ s with qhead := s.qhead + 1 } : Stk).tr p := hx.1.inv.tv p (List.mem_of_getElem? hg)
      have hl := propLit_good PK.rinv (sandbox := true) hx.1 hp
      have hw := propLit_wtB (sandbox := true) hx.1 hp (level_pending hi.inv h.cur le_rfl hg) (h.advance hg)
      cases hr : propLit true p db { s with qhead := s.qhead + 1 } with
      | ok db1 s1 =>
        rw [hr] at hl hw
        exact propLoopSandbox_wtB (hl.allR hx.1).1 hw
      | conflict db1 s1 l r => rw [hr] at hw; exact hw
      | panic => trivial
      | fuel => trivial

theorem propLoop_wtB {Z : Lit → Prop} {q : Nat} : ∀ {n : Nat} {db : Cdb} {s : Stk}, PInv db s → Wt (fun _ w => Z w) db s → (propLoop q n db s).WtB Z
  | 0, _, _, _, _ => trivial
  | n + 1, db, s, hi, h => by
    unfold propLoop
    cases hg : s.trail[s.qhead]? with
    | none => exact h
    | some p =>
      simp only []
      have hx := (advance_step (db := db) hg).all hi
      have hp : ({ s with qhead := s.qhead + 1 } : Stk).tr p := hx.1.inv.tv p (List.mem_of_getElem? hg)
      have hl := propLit_good PK.pinv (sandbox := false) hx.1 hp
      have hw := propLit_wtB (sandbox := false) hx.1.rinv hp (level_pending hi.inv h.cur le_rfl hg) (h.advance hg)
      cases hr : propLit false p db { s with qhead := s.qhead + 1 } with
      | ok db1 s1 =>
        rw [hr] at hl hw
        simp only []
        have hy := hl.all hx.1
        have hu := reuse_good (q := q) hy.1
        have hv := reuse_wtB (q := q) hy.1.inv hw
        cases hru : reuse db1 q s1 with
        | ok db2 s2 =>
          rw [hru] at hu hv
          exact propLoop_wtB (hu.all hy.1).1 hv
        | conflict db2 s2 l r => rw [hru] at hv; exact PRes.WtB.ofAll (r := .conflict db2 s2 l r) hv
        | panic => trivial
        | fuel => trivial
      | conflict db1 s1 l r => rw [hr] at hw; exact hw
      | panic => trivial
      | fuel => trivial

theorem propagateSandbox_wtB {Z : Lit → Prop} {db : Cdb} {s : Stk} (hi : RInv db s) (h : Wt (fun _ w => Z w) db s) : (propagateSandbox db s).WtB Z := propLoopSandbox_wtB hi h

theorem propagate_wtB {Z : Lit → Prop} {q : Nat} {db : Cdb} {s : Stk} (hi : PInv db s) (h : Wt (fun _ w => Z w) db s) : (propagate q db s).WtB Z := by
  unfold propagate
  have hu := reuse_good (q := q) hi
  have hv := reuse_wtB (q := q) hi.inv h
  cases hru : reuse db q s with
  | ok db2 s2 =>
    rw [hru] at hu hv
    exact propLoop_wtB (hu.all hi).1 hv
  | conflict db2 s2 l r => rw [hru] at hv; exact PRes.WtB.ofAll (r := .conflict db2 s2 l r) hv
  | panic => trivial
  | fuel => trivial

theorem PRes.WtB.wt {r : PRes} (h : r.WtB (fun _ => False)) : r.Wt := by
  cases r <;> first | exact h | exact Splr.Wt.mono h (fun _ _ h => h.elim False.elim id)

theorem propagateSandbox_wt {db : Cdb} {s : Stk} (hi : RInv db s) (h : Wt No db s) : (propagateSandbox db s).Wt := (propagateSandbox_wtB hi h).wt

theorem propagate_wt {q : Nat} {db : Cdb} {s : Stk} (hi : PInv db s) (h : Wt No db s) : (propagate q db s).Wt := (propagate_wtB hi h).wt

/-- The consequence: when nothing is left to propagate, no clause is falsified, and none is one unassigned literal short of it. -/
theorem Wt.closed {db : Cdb} {s : Stk} (hwf : db.WF) (h : Wt No db s) (hq : s.trail.length ≤ s.qhead) {i : Nat} (hi : (db.clause i).lits ≠ []) :
    (∃ t ∈ (db.clause i).lits, s.tr t) ∨ ∃ x y, x ≠ y ∧ x ∈ (db.clause i).lits ∧ y ∈ (db.clause i).lits ∧ s.assign x.var = none ∧ s.assign y.var = none := by
  by_contra hcon
  rw [not_or] at hcon
  obtain ⟨h1, h2⟩ := hcon
  have h2l := hwf.len2 i hi
  match hl : (db.clause i).lits, h2l with
  | x :: y :: tl, _ =>
    have hw : ∀ w, W2 (db.clause i).lits w → s.assign w.var = none := by
      intro w hw
      rcases tr_cases s w with ht | ht | ht
      · exact absurd ⟨w, hw.elim List.mem_of_getElem? List.mem_of_getElem?, ht⟩ h1
      · obtain ⟨t, t1, t2, _⟩ := h.wat i w hw ⟨ht, by rw [List.drop_eq_nil_of_le hq]; simp⟩ (fun h => h)
        exact absurd ⟨t, t1, t2⟩ h1
      · exact ht
    refine h2 ⟨x, y, ?_, by rw [hl]; simp, by rw [hl]; simp, hw x (by rw [hl]; exact .inl rfl), hw y (by rw [hl]; exact .inr rfl)⟩
    have := Cdb.nodup_of_map_var (hwf.nd i)
    rw [hl] at this
    rintro rfl; simp at this

end Splr
