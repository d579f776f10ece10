import Verif.Lemmas.CdbWF
/-! The clause database operations preserve the invariant. -/
namespace Splr
namespace Cdb

theorem newClause_spec {db db' : Cdb} {level : Nat → Nat} {vec : Cls} {learnt : Bool} {r : RefClause} (h : db.WF)
    (hnd : (vec.map Lit.var).Nodup) (e : db.newClause level vec learnt = some (db', r)) :
    db'.WF ∧
    ((∃ cid a b, r = .registered cid ∧ db' = db ∧ vec = [a, b] ∧
        ((db.clause cid).lits = [a, b] ∨ (db.clause cid).lits = [b, a])) ∨
     (∃ cid c, r = .clause cid ∧ 0 < cid ∧ cid < db'.len ∧ (db.clause cid).lits = [] ∧ c.lits = vec ∧ 2 ≤ vec.length ∧
        c.searchFrom = 2 ∧ c.learnt = (learnt && decide (vec.length ≠ 2)) ∧
        (∀ a b, vec = [a, b] → db.blSearch a b = none) ∧
        db'.clause = upd db.clause cid c ∧ db'.cert = db.cert ++ [.add vec])) := by
  unfold newClause at e
  split at e
  next l0 l1 tl =>
    split at e
    next cid hs =>
      split at hs
      next htl =>
        subst htl
        simp only [Option.some.injEq, Prod.mk.injEq] at e
        obtain ⟨rfl, rfl⟩ := e
        refine ⟨h, .inl ⟨cid, l0, l1, rfl, rfl, rfl, ?_⟩⟩
        obtain ⟨a, b, e1, e2⟩ := (h.hIff _ _).1 hs
        rcases bkey_eq.1 e2 with ⟨rfl, rfl⟩ | ⟨rfl, rfl⟩
        · exact .inl e1
        · exact .inr e1
      next => simp at hs
    next hs =>
      simp only [Option.some.injEq, Prod.mk.injEq] at e
      obtain ⟨rfl, rfl⟩ := e
      have hno : tl = [] → db.blSearch l0 l1 = none := fun ht => by rw [if_pos ht] at hs; exact hs
      have h1 : (db.log (.add (l0 :: l1 :: tl))).WF := h.congr rfl rfl rfl rfl rfl rfl
      set c : Cl := Cl.mk (l0 :: l1 :: tl) (learnt && !tl.isEmpty) 2
        (if tl.isEmpty = true then 1 else lbdOf level (l0 :: l1 :: tl)) false false with hc
      have hal := alloc_spec h1 c (by simp [hc])
      obtain ⟨a1, a2, a3, a4, a5, a6, a7, a8, a9, a10⟩ := hal
      refine ⟨?_, .inr ⟨_, c, rfl, a7, ?_, ?_, rfl, by simp, rfl, ?_, ?_, ?_, ?_⟩⟩
      · refine wf_attach (db0 := db) (c := c) h (by exact a1) (by rfl) hnd (Nat.le_refl 2) ?_ ?_ ?_ ?_ ?_ hno
        · exact a2
        · exact a4
        · exact a5
        · exact a6
        · obtain ⟨p1, p2, p3, p4, p5⟩ := a3
          exact ⟨p1, p2, p3, p4, p5⟩
      · rw [(attach_len _ _ _ _ _).1]; exact a9
      · exact a1
      · cases tl <;> simp [hc]
      · intro a b hab; simp at hab; obtain ⟨rfl, rfl, htl⟩ := hab; exact hno htl
      · rw [attach_clause]; exact a2
      · rw [(attach_len _ _ _ _ _).2.2]; show _ = _; exact a8
  next => simp at e

theorem newClause_isSome (db : Cdb) (level : Nat → Nat) (vec : Cls) (learnt : Bool) (h : 2 ≤ vec.length) :
    ∃ r, db.newClause level vec learnt = some r := by
  unfold newClause
  match vec, h with
  | l0 :: l1 :: tl, _ => simp only []; split <;> exact ⟨_, rfl⟩

/-- the arena after clause `cid` died -/
theorem arena_remove {db db' : Cdb} (h : db.WF) {cid : Nat} (hl : (db.clause cid).lits ≠ [])
    (h1 : db'.len = db.len) (h2 : db'.free = cid :: db.free) {c : Cl} (hc : c.lits = [])
    (h3 : db'.clause = upd db.clause cid c) : db'.Arena := by
  obtain ⟨a1, a2, a3, a4, a5⟩ := h.arena
  have hr : 0 < cid ∧ cid < db.len := by
    constructor
    · rcases Nat.eq_zero_or_pos cid with e | e
      · subst e; exact absurd a2 hl
      · exact e
    · by_contra e; exact hl (a3 _ (by omega))
  refine ⟨by rw [h1]; exact a1, ?_, ?_, ?_, ?_⟩
  · rw [h3, upd_of_ne _ _ (by omega)]; exact a2
  · intro i hi; rw [h3]; by_cases e : i = cid
    · subst e; simp [hc]
    · rw [upd_of_ne _ _ e]; exact a3 i (by omega)
  · rw [h2, List.nodup_cons]; exact ⟨fun hm => hl ((a5 cid).1 hm).2.2, a4⟩
  · intro i; rw [h2, h3, h1]
    by_cases e : i = cid
    · subst e; simp [hc, hr]
    · rw [upd_of_ne _ _ e]; simp [e, a5]

theorem removeClause_spec {db db' : Cdb} {cid : Nat} (h : db.WF) (e : db.removeClause cid = some db') :
    db'.WF ∧ (db.clause cid).lits ≠ [] ∧ db'.clause = upd db.clause cid { db.clause cid with lits := [] } ∧
    db'.len = db.len ∧ db'.cert = db.cert ++ [.del (db.clause cid).lits] := by
  unfold removeClause at e
  split at e
  next l0 l1 tl hl =>
    simp only [Option.some.injEq] at e
    have hab := h.ne01 hl
    have habn : l0.neg ≠ l1.neg := fun e => hab.1 (Lit.neg_inj.1 e)
    have hne : (db.clause cid).lits ≠ [] := by rw [hl]; simp
    have hcl : db'.clause = upd db.clause cid { db.clause cid with lits := [] } := by
      rw [← e]; cases tl <;> rfl
    refine ⟨?_, hne, hcl, by rw [← e]; cases tl <;> rfl, by rw [← e, hl]; cases tl <;> rfl⟩
    have ha : db'.Arena := arena_remove h hne (by rw [← e]; cases tl <;> rfl) (by rw [← e]; cases tl <;> rfl) (c := { db.clause cid with lits := [] }) rfl hcl
    have hcid : (db'.clause cid).lits = [] := by rw [hcl]; simp
    have hclf : ∀ i, i ≠ cid → ((db'.clause i).lits = (db.clause i).lits ∧ 2 ≤ (db'.clause i).searchFrom) := by
      intro i hi; rw [hcl, upd_of_ne _ _ hi]; exact ⟨rfl, h.sf i⟩
    have hs : 2 ≤ (db'.clause cid).searchFrom := by rw [hcl]; simp; exact h.sf cid
    cases tl with
    | nil =>
      have ew : db'.watch = db.watch := by rw [← e]; rfl
      have eb : db'.blist = (db.blRemove l0 l1).blist := by rw [← e]; rfl
      have eh : db'.bhash = (db.blRemove l0 l1).bhash := by rw [← e]; rfl
      have link : ∀ i, ((db.clause i).lits = [l0, l1] ∨ (db.clause i).lits = [l1, l0]) → i = cid := by
        intro i hi
        have e1 : db.bhash (bkey l0 l1) = some i := by
          rw [h.hIff]; rcases hi with hi | hi
          · exact ⟨_, _, hi, rfl⟩
          · exact ⟨_, _, hi, bkey_comm _ _⟩
        have e2 : db.bhash (bkey l0 l1) = some cid := (h.hIff _ _).2 ⟨_, _, hl, rfl⟩
        rw [e1] at e2; simpa using e2
      refine h.of_frame (cid := cid) ⟨hclf, ?_, ?_, ?_⟩ ha ?_ ?_ hs ?_ ?_ ?_ ?_ ?_
      · intro l i x hi; rw [ew]
      · intro l x i hi
        rw [eb, mem_blRemove h.nb hab.1]
        constructor
        · exact fun hx => hx.1
        · intro hx
          refine ⟨hx, ?_, ?_⟩
          · rintro ⟨rfl, rfl⟩; exact hi (link i ((h.bIff _ _ _).1 hx))
          · rintro ⟨rfl, rfl⟩; exact hi (link i ((h.bIff _ _ _).1 hx).symm)
      · intro k i hi
        rw [eh]; unfold blRemove; simp only [upd_apply]
        split
        · rename_i hk
          simp only [reduceCtorEq, false_iff]
          intro hx; rw [hk] at hx
          have e2 : db.bhash (bkey l0 l1) = some cid := (h.hIff _ _).2 ⟨_, _, hl, rfl⟩
          rw [hx] at e2; exact hi (by simpa using e2)
        · rfl
      · rw [hcid]; simp
      · rw [hcid]; simp
      · intro l; rw [ew]; exact h.nw l
      · intro l; rw [eb]; exact nodup_blRemove h.nb l0 l1 l
      · intro l; rw [hcid, ew]
        have := fun x => h.not_long (cid := cid) (by rw [hl]; simp) l x
        simp [this, Watched]
      · intro l x; rw [hcid, eb, mem_blRemove h.nb hab.1]
        simp only [List.nil_eq, reduceCtorEq, or_self, iff_false]
        rintro ⟨hx, n1, n2⟩
        rcases (h.bIff _ _ _).1 hx with e' | e' <;> rw [hl] at e' <;> simp at e'
        · exact n1 ⟨e'.1.symm, e'.2.symm⟩
        · exact n2 ⟨e'.2.symm, e'.1.symm⟩
      · intro k; rw [hcid, eh]; unfold blRemove; simp only [upd_apply]
        simp only [List.nil_eq, reduceCtorEq, false_and, exists_false, iff_false]
        split
        · simp
        · rename_i hk
          intro hx; obtain ⟨a, b, e1, e2⟩ := (h.hIff _ _).1 hx
          rw [hl] at e1; simp at e1; exact hk (by rw [e2, e1.1, e1.2])
    | cons t0 tl =>
      have ew : db'.watch = ((db.rmW l0.neg cid).rmW l1.neg cid).watch := by rw [← e]; rfl
      have eb : db'.blist = db.blist := by rw [← e]; rfl
      have eh : db'.bhash = db.bhash := by rw [← e]; rfl
      have n1 := nodup_rmW h.nw l0.neg cid
      refine h.of_frame (cid := cid) ⟨hclf, ?_, ?_, ?_⟩ ha ?_ ?_ hs ?_ ?_ ?_ ?_ ?_
      · intro l i x hi; rw [ew, mem_rmW n1, mem_rmW h.nw]; simp [hi]
      · intro l x i hi; rw [eb]
      · intro k i hi; rw [eh]
      · rw [hcid]; simp
      · rw [hcid]; simp
      · intro l; rw [ew]; exact nodup_rmW n1 l1.neg cid l
      · intro l; rw [eb]; exact h.nb l
      · intro l; rw [hcid]
        simp only [ew, mem_rmW n1, mem_rmW h.nw]
        constructor
        · rintro ⟨x, ⟨hx, h1⟩, h2⟩
          have := (h.wIff l cid).1 ⟨x, hx⟩
          rw [hl, getElem01] at this
          rcases this.2 with rfl | rfl
          · simp at h1
          · simp at h2
        · intro hx; simp [Watched] at hx
      · intro l x; rw [hcid, eb]
        simp [h.not_bi (cid := cid) (by rw [hl]; simp) l x]
      · intro k; rw [hcid, eh]; simp [h.not_hash (cid := cid) (by rw [hl]; simp) k]
  next => simp at e

theorem removeClause_isSome {db : Cdb} {cid : Nat} (h : db.WF) (hl : (db.clause cid).lits ≠ []) :
    ∃ db', db.removeClause cid = some db' := by
  have := h.len2 cid hl
  unfold removeClause
  match hc : (db.clause cid).lits, this with
  | l0 :: l1 :: tl, _ => exact ⟨_, rfl⟩

/-- the arena after clause `cid` was rewritten -/
theorem arena_modify {db db' : Cdb} (h : db.WF) {cid : Nat} (hl : (db.clause cid).lits ≠ [])
    (h1 : db'.len = db.len) (h2 : db'.free = db.free) {c : Cl} (hc : c.lits ≠ [])
    (h3 : db'.clause = upd db.clause cid c) : db'.Arena := by
  obtain ⟨a1, a2, a3, a4, a5⟩ := h.arena
  refine ⟨by rw [h1]; exact a1, ?_, ?_, by rw [h2]; exact a4, ?_⟩
  · rw [h3]; by_cases e : 0 = cid
    · subst e; exact absurd a2 hl
    · rw [upd_of_ne _ _ e]; exact a2
  · intro i hi; rw [h3]; by_cases e : i = cid
    · subst e; exact absurd (a3 i (by omega)) hl
    · rw [upd_of_ne _ _ e]; exact a3 i (by omega)
  · intro i; rw [h2, h3, h1]
    by_cases e : i = cid
    · subst e
      simp only [upd_same, hc, and_false, iff_false]
      intro hm; exact hl ((a5 i).1 hm).2.2
    · rw [upd_of_ne _ _ e]; exact a5 i

/-- Clause `cid`, of three or more literals, is rewritten into a binary clause that was not present. -/
theorem wf_to_binary {db db' : Cdb} (h : db.WF) {cid : Nat} {o0 o1 t0 : Lit} {tl : Cls} {a b : Lit} {c : Cl}
    (hl : (db.clause cid).lits = o0 :: o1 :: t0 :: tl) (hc : c.lits = [a, b]) (hab : a.var ≠ b.var) (hsf : 2 ≤ c.searchFrom)
    (hno : db.blSearch a b = none) (h1 : db'.len = db.len) (h2 : db'.free = db.free)
    (h3 : db'.clause = upd db.clause cid c) (ew : db'.watch = ((db.rmW o0.neg cid).rmW o1.neg cid).watch)
    (eb : db'.blist = (db.blAdd a b cid).blist) (eh : db'.bhash = (db.blAdd a b cid).bhash) : db'.WF := by
  have hne : (db.clause cid).lits ≠ [] := by rw [hl]; simp
  have ha := arena_modify h hne h1 h2 (c := c) (by rw [hc]; simp) h3
  have hcid : db'.clause cid = c := by rw [h3]; simp
  have n1 := nodup_rmW h.nw o0.neg cid
  have hab' : a ≠ b := fun e => hab (by rw [e])
  have nB : ∀ l x, (x, cid) ∉ db.blist l := fun l x => h.not_bi (by rw [hl]; simp) l x
  have nH : ∀ k, db.bhash k ≠ some cid := fun k => h.not_hash (by rw [hl]; simp) k
  refine h.of_frame (cid := cid) ⟨?_, ?_, ?_, ?_⟩ ha ?_ ?_ ?_ ?_ ?_ ?_ ?_ ?_
  · intro i hi; rw [h3, upd_of_ne _ _ hi]; exact ⟨rfl, h.sf i⟩
  · intro l i x hi; rw [ew, mem_rmW n1, mem_rmW h.nw]; simp [hi]
  · intro l x i hi; rw [eb, mem_blAdd _ hab']; simp [hi]
  · intro k i hi; rw [eh]; unfold blAdd; simp only [upd_apply]
    split
    · rename_i hk
      have : db.bhash k = none := by rw [hk]; exact hno
      simp [this, Ne.symm hi]
    · rfl
  · rw [hcid, hc]; simp
  · rw [hcid, hc]; simp [hab]
  · rw [hcid]; exact hsf
  · intro l; rw [ew]; exact nodup_rmW n1 o1.neg cid l
  · intro l; rw [eb]
    exact nodup_blAdd h.nb hab' cid (fun i => (h.no_link hno i).1) (fun i => (h.no_link hno i).2.1) l
  · intro l; rw [hcid, hc]
    simp only [ew, mem_rmW n1, mem_rmW h.nw]
    constructor
    · rintro ⟨x, ⟨hx, h1⟩, h2⟩
      have := (h.wIff l cid).1 ⟨x, hx⟩
      rw [hl, getElem01] at this
      rcases this.2 with rfl | rfl
      · simp at h1
      · simp at h2
    · intro hx; simp [Watched] at hx
  · intro l x; rw [hcid, hc, eb, mem_blAdd _ hab']
    simp only [nB, false_or, List.cons.injEq, and_true, Prod.mk.injEq]
    constructor
    · rintro (⟨rfl, rfl⟩ | ⟨rfl, rfl⟩) <;> simp
    · rintro (⟨rfl, rfl⟩ | ⟨rfl, rfl⟩) <;> simp
  · intro k; rw [hcid, hc, eh]; unfold blAdd; simp only [upd_apply]
    split
    · rename_i hk; simp only [true_iff]; exact ⟨a, b, rfl, hk⟩
    · rename_i hk
      simp only [nH, false_iff]
      rintro ⟨x, y, e, rfl⟩
      simp at e; exact hk (by rw [e.1, e.2])

/-- Clause `cid` stays a clause of three or more literals. -/
theorem wf_to_long {db db' : Cdb} (h : db.WF) {cid : Nat} {o0 o1 : Lit} {tl : Cls} {c : Cl}
    (hl : (db.clause cid).lits = o0 :: o1 :: tl) (htl : tl ≠ []) (h3len : 3 ≤ c.lits.length)
    (hnd : (c.lits.map Lit.var).Nodup) (hsf : 2 ≤ c.searchFrom)
    (h1 : db'.len = db.len) (h2 : db'.free = db.free) (h3 : db'.clause = upd db.clause cid c)
    (eb : db'.blist = db.blist) (eh : db'.bhash = db.bhash) (hNW : db'.NodupW)
    (hwo : ∀ l i x, i ≠ cid → ((i, x) ∈ db'.watch l ↔ (i, x) ∈ db.watch l))
    (hwc : ∀ l, (∃ x, (cid, x) ∈ db'.watch l) ↔ Watched c.lits l) : db'.WF := by
  have hne : (db.clause cid).lits ≠ [] := by rw [hl]; simp
  have hcne : c.lits ≠ [] := by intro e; rw [e] at h3len; simp at h3len
  have ha := arena_modify h hne h1 h2 (c := c) hcne h3
  have hcid : db'.clause cid = c := by rw [h3]; simp
  have hlen : (db.clause cid).lits.length ≠ 2 := by rw [hl]; cases tl <;> simp at htl ⊢
  refine h.of_frame (cid := cid) ⟨?_, hwo, ?_, ?_⟩ ha ?_ ?_ ?_ hNW ?_ ?_ ?_ ?_
  · intro i hi; rw [h3, upd_of_ne _ _ hi]; exact ⟨rfl, h.sf i⟩
  · intro l x i hi; rw [eb]
  · intro k i hi; rw [eh]
  · rw [hcid]; omega
  · rw [hcid]; exact hnd
  · rw [hcid]; exact hsf
  · intro l; rw [eb]; exact h.nb l
  · rw [hcid]; exact hwc
  · intro l x; rw [hcid, eb]
    simp only [h.not_bi hlen, false_iff]
    rintro (e | e) <;> rw [e] at h3len <;> simp at h3len
  · intro k; rw [hcid, eh]
    simp only [h.not_hash hlen, false_iff]
    rintro ⟨a, b, e, -⟩; rw [e] at h3len; simp at h3len

end Cdb
end Splr
