import Verif.Lemmas.CdbTransform
/-! Moving watches during propagation, and clause reduction. -/
namespace Splr
namespace Cdb

theorem mem_swapRemove {w : List (Nat × Lit)} (hn : (w.map Prod.fst).Nodup) {idx cid : Nat} {b : Lit}
    (hi : w[idx]? = some (cid, b)) (x : Nat × Lit) : x ∈ swapRemove w idx ↔ x ∈ w ∧ x.1 ≠ cid := by
  obtain ⟨hlt, he⟩ := List.getElem?_eq_some_iff.1 hi
  rw [(swapRemove_perm w idx hlt).mem_iff]
  rw [List.mem_eraseIdx_iff_getElem]
  constructor
  · rintro ⟨i, hi1, hi2, rfl⟩
    refine ⟨List.getElem_mem _, fun e => ?_⟩
    have e1 : (w.map Prod.fst)[i]'(by simpa using hi1) = (w.map Prod.fst)[idx]'(by simpa using hlt) := by simp [e, he]
    exact hi2 ((List.Nodup.getElem_inj_iff hn).1 e1)
  · rintro ⟨hx, hc⟩
    obtain ⟨i, hi1, rfl⟩ := List.mem_iff_getElem.1 hx
    exact ⟨i, hi1, fun e => hc (by subst e; rw [he]), rfl⟩

theorem nodup_swapRemove {w : List (Nat × Lit)} (hn : (w.map Prod.fst).Nodup) {idx : Nat} (hi : idx < w.length) :
    ((swapRemove w idx).map Prod.fst).Nodup := by
  rw [((swapRemove_perm w idx hi).map Prod.fst).nodup_iff]
  exact List.Nodup.sublist (List.Sublist.map _ (List.eraseIdx_sublist _ _)) hn

theorem swapAt_perm (c : Cls) (i j : Nat) : (swapAt c i j).Perm c := by
  unfold swapAt
  cases h1 : c[i]? with
  | none => simp
  | some a =>
    cases h2 : c[j]? with
    | none => simp
    | some b =>
      simp only []
      obtain ⟨hi, rfl⟩ := List.getElem?_eq_some_iff.1 h1
      obtain ⟨hj, rfl⟩ := List.getElem?_eq_some_iff.1 h2
      exact List.set_set_perm hi hj

theorem swapAt_length (c : Cls) (i j : Nat) : (swapAt c i j).length = c.length := (swapAt_perm c i j).length_eq

theorem wf_swapWatch {db : Cdb} (h : db.WF) {cid : Nat} (hne : (db.clause cid).lits ≠ []) : (db.swapWatch cid).WF := by
  unfold swapWatch
  refine wf_same h (h.sf cid) hne ?_
  right
  match hl : (db.clause cid).lits, h.len2 cid hne with
  | a :: b :: tl, _ => exact ⟨a, b, tl, rfl, rfl⟩

theorem wf_restoreWatch {db : Cdb} (h : db.WF) (l : Lit) (idx : Nat) (op : Option Lit) : (db.restoreWatch l idx op).WF := by
  unfold restoreWatch
  cases op with
  | none => exact h
  | some b =>
    have efst : ∀ m, ((upd db.watch l ((db.watch l).modify idx fun e => (e.1, b))) m).map Prod.fst = (db.watch m).map Prod.fst := by
      intro m; simp only [upd_apply]; split
      · rename_i e; subst e
        apply List.ext_getElem?
        intro i
        simp only [List.getElem?_map, List.getElem?_modify]
        cases hh : (db.watch m)[i]? with
        | none => simp
        | some e => by_cases hx : idx = i <;> simp [hx]
      · rfl
    have hex : ∀ m i, (∃ x, (i, x) ∈ (upd db.watch l ((db.watch l).modify idx fun e => (e.1, b))) m) ↔ ∃ x, (i, x) ∈ db.watch m := by
      intro m i
      have k : ∀ w : List (Nat × Lit), (∃ x, (i, x) ∈ w) ↔ i ∈ w.map Prod.fst := by
        intro w; simp
      rw [k, k, efst]
    obtain ⟨⟨a1, a2, a3, a4, a5⟩, b1, b2, b3, b4, b5, b6, b7, b8⟩ := h
    exact ⟨⟨a1, a2, a3, a4, a5⟩, b1, b2, b3, fun m => by simp only []; rw [efst]; exact b4 m, b5, fun m i => by
      simp only []; rw [hex]; exact b6 m i, b7, b8⟩

/-- the literals after the watch at position `old` was exchanged with the literal at `k` -/
theorem swapAt_watched {c : Cls} {old k : Nat} {a b lk : Lit} (ho : old ≤ 1) (h2 : 2 ≤ k) (ha : c[old]? = some a)
    (hb : c[1 - old]? = some b) (hk : c[k]? = some lk) :
    (swapAt c old k)[old]? = some lk ∧ (swapAt c old k)[1 - old]? = some b := by
  unfold swapAt
  rw [ha, hk]
  simp only []
  obtain ⟨hi, -⟩ := List.getElem?_eq_some_iff.1 ha
  have e1 : old ≠ k := by omega
  have e2 : (1 - old) ≠ k := by omega
  have e3 : old ≠ 1 - old := by omega
  constructor
  · rw [List.getElem?_set_ne e1.symm, List.getElem?_set_self hi]
  · rw [List.getElem?_set_ne e2.symm, List.getElem?_set_ne e3, hb]

theorem moveWatch_spec {db : Cdb} (h : db.WF) {l : Lit} {idx cid old k sf : Nat} {b0 lk other : Lit}
    (hi : (db.watch l)[idx]? = some (cid, b0)) (ho : old ≤ 1) (ha : (db.clause cid).lits[old]? = some l.neg)
    (hb : (db.clause cid).lits[1 - old]? = some other) (h2 : 2 ≤ k) (hk : (db.clause cid).lits[k]? = some lk) (hsf : 2 ≤ sf) :
    (db.moveWatch l idx cid old k sf).WF ∧
    (db.moveWatch l idx cid old k sf).clause =
      upd db.clause cid { db.clause cid with lits := swapAt (db.clause cid).lits old k, searchFrom := sf } ∧
    (∀ m, m ≠ lk.neg → m ≠ l → (db.moveWatch l idx cid old k sf).watch m = db.watch m) ∧
    (l ≠ lk.neg) ∧
    (db.moveWatch l idx cid old k sf).watch l = swapRemove (db.watch l) idx ∧
    (db.moveWatch l idx cid old k sf).watch lk.neg = db.watch lk.neg ++ [(cid, other)] ∧
    (db.moveWatch l idx cid old k sf).blist = db.blist ∧ (db.moveWatch l idx cid old k sf).len = db.len ∧
    (db.moveWatch l idx cid old k sf).bhash = db.bhash ∧ (db.moveWatch l idx cid old k sf).free = db.free ∧
    (db.moveWatch l idx cid old k sf).cert = db.cert := by
  have hlen : k < (db.clause cid).lits.length := (List.getElem?_eq_some_iff.1 hk).1
  have hne : (db.clause cid).lits ≠ [] := by intro e; rw [e] at hlen; simp at hlen
  have hnd := nodup_of_map_var (h.nd cid)
  -- different positions hold different literals
  have inj : ∀ {i j : Nat} {x : Lit}, (db.clause cid).lits[i]? = some x → (db.clause cid).lits[j]? = some x → i = j := by
    intro i j x h1 h2
    obtain ⟨p1, q1⟩ := List.getElem?_eq_some_iff.1 h1
    obtain ⟨p2, q2⟩ := List.getElem?_eq_some_iff.1 h2
    exact (hnd.getElem_inj_iff (hi := p1) (hj := p2)).1 (by rw [q1, q2])
  have e1 : l ≠ lk.neg := by
    intro e
    have : l.neg = lk := by rw [e]; simp
    rw [this] at ha; have := inj ha hk; omega
  have e2 : l.neg ≠ other := by intro e; rw [e] at ha; have := inj ha hb; omega
  have e3 : lk ≠ other := by intro e; rw [e] at hk; have := inj hb hk; omega
  have hw := mem_swapRemove (h.nw l) hi
  have hidx : idx < (db.watch l).length := (List.getElem?_eq_some_iff.1 hi).1
  have E : db.moveWatch l idx cid old k sf =
      { ({ db with watch := upd db.watch l (swapRemove (db.watch l) idx) } : Cdb).insW lk.neg cid other with
        clause := upd db.clause cid { db.clause cid with lits := swapAt (db.clause cid).lits old k, searchFrom := sf } } := by
    simp only [moveWatch, hk, hb]; rfl
  have hwI := fun m => h.wIff m cid
  have hL : ∀ m, (∃ b, (cid, b) ∈ db.watch m) ↔ m = l ∨ m = other.neg := by
    intro m; rw [hwI]
    unfold Watched
    have hgen : ((db.clause cid).lits[0]? = some m.neg ∨ (db.clause cid).lits[1]? = some m.neg) ↔
        ((db.clause cid).lits[old]? = some m.neg ∨ (db.clause cid).lits[1 - old]? = some m.neg) := by
      rcases Nat.le_one_iff_eq_zero_or_eq_one.1 ho with rfl | rfl
      · simp
      · simp; tauto
    rw [hgen, ha, hb]
    have : 3 ≤ (db.clause cid).lits.length := by omega
    simp only [this, true_and, Option.some.injEq]
    constructor
    · rintro (e | e)
      · left; exact (Lit.neg_inj.1 e).symm
      · right; rw [e]; simp
    · rintro (e | e)
      · left; rw [e]
      · right; rw [e]; simp
  have hno : ∀ x, (cid, x) ∉ db.watch lk.neg := by
    intro x hx; rcases (hL lk.neg).1 ⟨x, hx⟩ with e | e
    · exact e1 e.symm
    · exact e3 (Lit.neg_inj.1 e)
  have N1 : ({ db with watch := upd db.watch l (swapRemove (db.watch l) idx) } : Cdb).NodupW := by
    intro m; simp only [upd_apply]; split
    · exact nodup_swapRemove (h.nw l) hidx
    · exact h.nw m
  have mem1 : ∀ m x, x ∈ upd db.watch l (swapRemove (db.watch l) idx) m ↔ x ∈ db.watch m ∧ ¬ (m = l ∧ x.1 = cid) := by
    intro m x; simp only [upd_apply]; split
    · rename_i e; subst e; rw [hw]; simp
    · rename_i e; simp [e]
  obtain ⟨s1, s2⟩ := swapAt_watched ho h2 ha hb hk
  refine ⟨?_, by rw [E], ?_, e1, ?_, ?_, by rw [E]; rfl, by rw [E]; rfl, by rw [E]; rfl, by rw [E]; rfl, by rw [E]; rfl⟩
  · rw [E]
    have h3l : 3 ≤ (db.clause cid).lits.length := by omega
    match hl : (db.clause cid).lits, h3l with
    | o0 :: o1 :: t, h3l' =>
    rw [← hl]
    refine wf_to_long h hl (tl := t) ?_ (c := { db.clause cid with lits := swapAt (db.clause cid).lits old k, searchFrom := sf }) ?_ ?_ hsf
      rfl rfl rfl rfl rfl ?_ ?_ ?_
    · rintro rfl; simp at h3l'
    · simp only [swapAt_length]; exact h3l
    · exact ((swapAt_perm _ _ _).map Lit.var).nodup_iff.2 (h.nd cid)
    · refine nodup_insW N1 lk.neg cid other ?_
      intro x hx; simp only [] at hx; rw [mem1] at hx; exact hno x hx.1
    · intro m i x hic
      show (i, x) ∈ (({ db with watch := upd db.watch l (swapRemove (db.watch l) idx) } : Cdb).insW lk.neg cid other).watch m ↔ _
      rw [mem_insW]; simp only []; rw [mem1]; simp [hic]
    · intro m
      show (∃ x, (cid, x) ∈ (({ db with watch := upd db.watch l (swapRemove (db.watch l) idx) } : Cdb).insW lk.neg cid other).watch m) ↔ _
      simp only [mem_insW, mem1]
      unfold Watched
      have hgen : ((swapAt (db.clause cid).lits old k)[0]? = some m.neg ∨ (swapAt (db.clause cid).lits old k)[1]? = some m.neg) ↔
          ((swapAt (db.clause cid).lits old k)[old]? = some m.neg ∨ (swapAt (db.clause cid).lits old k)[1 - old]? = some m.neg) := by
        rcases Nat.le_one_iff_eq_zero_or_eq_one.1 ho with rfl | rfl
        · simp
        · simp; tauto
      rw [hgen, s1, s2]
      have : 3 ≤ (swapAt (db.clause cid).lits old k).length := by
        rw [swapAt_length]; exact h3l
      simp only [this, true_and, Option.some.injEq]
      constructor
      · rintro ⟨x, ⟨hx, hn⟩ | ⟨rfl, -⟩⟩
        · rcases (hL m).1 ⟨x, hx⟩ with rfl | rfl
          · simp at hn
          · right; simp
        · left; simp
      · rintro (e | e)
        · exact ⟨other, .inr ⟨by rw [e]; simp, rfl⟩⟩
        · have hm : m = other.neg := by rw [e]; simp
          obtain ⟨x, hx⟩ := (hL m).2 (.inr hm)
          exact ⟨x, .inl ⟨hx, fun ee => e2 (by rw [← ee.1, hm]; simp)⟩⟩
  · intro m h1 h2; rw [E]; simp [insW, upd_of_ne _ _ h1, upd_of_ne _ _ h2]
  · rw [E]; simp [insW, upd_of_ne _ _ e1]
  · rw [E]; simp [insW, insertWatch, upd_of_ne _ _ (Ne.symm e1)]

/-! ## reduce -/

theorem wf_lits {db db' : Cdb} (h : db.WF) (hc : ∀ i, (db'.clause i).lits = (db.clause i).lits ∧ (db'.clause i).searchFrom = (db.clause i).searchFrom)
    (h2 : db'.len = db.len) (h3 : db'.free = db.free)
    (h4 : db'.watch = db.watch) (h5 : db'.blist = db.blist) (h6 : db'.bhash = db.bhash) : db'.WF := by
  obtain ⟨⟨a1, a2, a3, a4, a5⟩, b1, b2, b3, b4, b5, b6, b7, b8⟩ := h
  refine ⟨⟨?_, ?_, ?_, ?_, ?_⟩, ?_, ?_, ?_, ?_, ?_, ?_, ?_, ?_⟩ <;>
    (try unfold NodupW) <;> (try unfold NodupB) <;> simp only [hc, h2, h3, h4, h5, h6] <;> assumption

theorem wf_rerank {db : Cdb} (h : db.WF) (level : Nat → Nat) : (db.rerank level).WF := by
  refine wf_lits h (fun i => ?_) rfl rfl rfl rfl rfl
  unfold rerank; simp only []; split <;> exact ⟨rfl, rfl⟩

theorem foldl_remove {victims : List Nat} : ∀ {db : Cdb}, db.WF → victims.Nodup → (∀ i ∈ victims, (db.clause i).lits ≠ []) →
    ∃ db', victims.foldlM Cdb.removeClause db = some db' ∧ db'.WF ∧ db'.len = db.len ∧
      (∀ i, i ∉ victims → db'.clause i = db.clause i) ∧ (∀ i ∈ victims, (db'.clause i).lits = []) ∧
      db'.cert = db.cert ++ victims.map (fun i => .del (db.clause i).lits) := by
  induction victims with
  | nil => intro db h _ _; exact ⟨db, rfl, h, rfl, fun _ _ => rfl, by simp, by simp⟩
  | cons v vs ih =>
    intro db h hn hl
    obtain ⟨d1, e1⟩ := removeClause_isSome h (hl v (by simp))
    obtain ⟨w1, -, c1, l1, ce1⟩ := removeClause_spec h e1
    have hnv := List.nodup_cons.1 hn
    have hne : ∀ i ∈ vs, i ≠ v := fun i hi e => hnv.1 (e ▸ hi)
    obtain ⟨d2, e2, w2, l2, k2, z2, ce2⟩ := ih w1 hnv.2 (fun i hi => by
      rw [c1, upd_of_ne _ _ (hne i hi)]; exact hl i (by simp [hi]))
    refine ⟨d2, ?_, w2, by rw [l2, l1], ?_, ?_, ?_⟩
    · simp [List.foldlM_cons, e1, e2]
    · intro i hi; simp at hi
      rw [k2 i hi.2, c1, upd_of_ne _ _ hi.1]
    · intro i hi
      rcases List.mem_cons.1 hi with rfl | hi
      · rw [k2 i hnv.1, c1]; simp
      · exact z2 i hi
    · rw [ce2, ce1]
      simp only [List.map_cons, List.append_assoc, List.singleton_append]
      congr 2
      apply List.map_congr_left
      intro i hi; rw [c1, upd_of_ne _ _ (hne i hi)]

theorem reduce_spec {db : Cdb} (h : db.WF) (level : Nat → Nat) (victims : List Nat) :
    ∃ db', db.reduce level victims = some db' ∧ db'.WF ∧ db'.len = db.len ∧
      (∀ i, (db'.clause i).lits = (db.clause i).lits ∧ (db'.clause i).learnt = (db.clause i).learnt ∨
        ((db.clause i).lits ≠ [] ∧ (db.clause i).learnt = true ∧ 4 < lbdOf level (db.clause i).lits ∧ (db'.clause i).lits = [])) := by
  set vs := (victims.filter (db.rerank level).reducible).dedup with hvs
  have hmem : ∀ i, i ∈ vs → (db.rerank level).reducible i = true := by
    intro i hi; rw [hvs, List.mem_dedup] at hi; exact (List.mem_filter.1 hi).2
  have hred : ∀ i ∈ vs, ((db.rerank level).clause i).lits ≠ [] ∧ (db.clause i).learnt = true ∧ 4 < lbdOf level (db.clause i).lits := by
    intro i hi
    have := hmem i hi
    simp only [reducible, Bool.and_eq_true, decide_eq_true_eq, Bool.not_eq_true'] at this
    obtain ⟨⟨⟨_, hd⟩, hl⟩, hr⟩ := this
    have hd0 : ((db.clause i).dead) = false := by
      cases hdd : (db.clause i).dead
      · rfl
      · simp [rerank, hdd] at hd
    simp only [rerank, hd0] at hd hl hr ⊢
    refine ⟨?_, hl, hr⟩
    intro e; simp at e; simp [Cl.dead, e] at hd0
  obtain ⟨d, e, w, l, k, z, -⟩ := foldl_remove (wf_rerank h level) (List.nodup_dedup (victims.filter (db.rerank level).reducible))
    (fun i hi => (hred i hi).1)
  have hlr : ∀ i, ((db.rerank level).clause i).lits = (db.clause i).lits ∧ ((db.rerank level).clause i).learnt = (db.clause i).learnt := by
    intro i; unfold rerank; simp only []; split <;> exact ⟨rfl, rfl⟩
  refine ⟨d, e, w, l, fun i => ?_⟩
  by_cases hi : i ∈ vs
  · right; refine ⟨?_, (hred i hi).2.1, (hred i hi).2.2, z i hi⟩
    rw [← (hlr i).1]; exact (hred i hi).1
  · left; rw [k i hi]; exact hlr i

end Cdb
end Splr
