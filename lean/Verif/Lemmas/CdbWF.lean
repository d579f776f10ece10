import Verif.Lemmas.CdbWatch
/-! The invariant of the clause database and its preservation. -/
namespace Splr

/-- A clause of three or more literals is watched under the negations of its first two literals. -/
def Watched (c : Cls) (l : Lit) : Prop := 3 ≤ c.length ∧ (c[0]? = some l.neg ∨ c[1]? = some l.neg)

namespace Cdb

/-- The clause arena and the freelist. -/
structure Arena (db : Cdb) : Prop where
  pos : 0 < db.len
  zero : (db.clause 0).lits = []
  big : ∀ i, db.len ≤ i → (db.clause i).lits = []
  freeNodup : db.free.Nodup
  freeIff : ∀ i, i ∈ db.free ↔ 0 < i ∧ i < db.len ∧ (db.clause i).lits = []

structure WF (db : Cdb) : Prop where
  arena : db.Arena
  len2 : ∀ i, (db.clause i).lits ≠ [] → 2 ≤ (db.clause i).lits.length
  nd : ∀ i, ((db.clause i).lits.map Lit.var).Nodup
  sf : ∀ i, 2 ≤ (db.clause i).searchFrom
  nw : db.NodupW
  nb : db.NodupB
  wIff : ∀ l i, (∃ b, (i, b) ∈ db.watch l) ↔ Watched (db.clause i).lits l
  bIff : ∀ a b i, (b, i) ∈ db.blist a ↔ (db.clause i).lits = [a, b] ∨ (db.clause i).lits = [b, a]
  hIff : ∀ k i, db.bhash k = some i ↔ ∃ a b, (db.clause i).lits = [a, b] ∧ k = bkey a b

theorem wf_new : Cdb.new.WF := by
  refine ⟨⟨by decide, rfl, fun _ _ => rfl, by simp [Cdb.new], ?_⟩, ?_, ?_, ?_, ?_, ?_, ?_, ?_, ?_⟩
  all_goals simp [Cdb.new, Cl.none, NodupW, NodupB, Watched]
  intro i h; omega

/-- Everything but clause `cid` is as before. -/
structure Frame (db db' : Cdb) (cid : Nat) : Prop where
  cl : ∀ i, i ≠ cid → (db'.clause i).lits = (db.clause i).lits ∧ 2 ≤ (db'.clause i).searchFrom
  w : ∀ l i b, i ≠ cid → ((i, b) ∈ db'.watch l ↔ (i, b) ∈ db.watch l)
  b : ∀ a b i, i ≠ cid → ((b, i) ∈ db'.blist a ↔ (b, i) ∈ db.blist a)
  h : ∀ k i, i ≠ cid → (db'.bhash k = some i ↔ db.bhash k = some i)

theorem WF.of_frame {db db' : Cdb} {cid : Nat} (h : db.WF) (hf : Frame db db' cid) (ha : db'.Arena)
    (h2 : (db'.clause cid).lits ≠ [] → 2 ≤ (db'.clause cid).lits.length)
    (hnd : ((db'.clause cid).lits.map Lit.var).Nodup) (hsf : 2 ≤ (db'.clause cid).searchFrom)
    (hw : db'.NodupW) (hb : db'.NodupB)
    (hwc : ∀ l, (∃ b, (cid, b) ∈ db'.watch l) ↔ Watched (db'.clause cid).lits l)
    (hbc : ∀ a b, (b, cid) ∈ db'.blist a ↔ (db'.clause cid).lits = [a, b] ∨ (db'.clause cid).lits = [b, a])
    (hhc : ∀ k, db'.bhash k = some cid ↔ ∃ a b, (db'.clause cid).lits = [a, b] ∧ k = bkey a b) : db'.WF := by
  refine ⟨ha, ?_, ?_, ?_, hw, hb, ?_, ?_, ?_⟩
  · intro i; by_cases e : i = cid
    · subst e; exact h2
    · rw [(hf.cl i e).1]; exact h.len2 i
  · intro i; by_cases e : i = cid
    · subst e; exact hnd
    · rw [(hf.cl i e).1]; exact h.nd i
  · intro i; by_cases e : i = cid
    · subst e; exact hsf
    · exact (hf.cl i e).2
  · intro l i; by_cases e : i = cid
    · subst e; exact hwc l
    · rw [(hf.cl i e).1, ← h.wIff l i]; simp only [hf.w l i _ e]
  · intro a b i; by_cases e : i = cid
    · subst e; exact hbc a b
    · rw [(hf.cl i e).1, ← h.bIff a b i, hf.b a b i e]
  · intro k i; by_cases e : i = cid
    · subst e; exact hhc k
    · rw [(hf.cl i e).1, ← h.hIff k i, hf.h k i e]

theorem WF.ne01 {db : Cdb} (h : db.WF) {i : Nat} {a b : Lit} {tl : Cls} (he : (db.clause i).lits = a :: b :: tl) :
    a ≠ b ∧ a.var ≠ b.var := by
  have := h.nd i; rw [he] at this; simp at this
  refine ⟨fun e => this.1.1 (by rw [e]), this.1.1⟩

/-- WF only depends on these parts. -/
theorem WF.congr {db db' : Cdb} (h : db.WF) (h1 : db'.clause = db.clause) (h2 : db'.len = db.len) (h3 : db'.free = db.free)
    (h4 : db'.watch = db.watch) (h5 : db'.blist = db.blist) (h6 : db'.bhash = db.bhash) : db'.WF := by
  obtain ⟨⟨a1, a2, a3, a4, a5⟩, b1, b2, b3, b4, b5, b6, b7, b8⟩ := h
  refine ⟨⟨?_, ?_, ?_, ?_, ?_⟩, ?_, ?_, ?_, ?_, ?_, ?_, ?_, ?_⟩ <;>
    (try unfold NodupW) <;> (try unfold NodupB) <;> simp only [h1, h2, h3, h4, h5, h6] <;> assumption

theorem WF.watch_ne {db : Cdb} (h : db.WF) {cid : Nat} (hd : (db.clause cid).lits = []) (l b : Lit) :
    (cid, b) ∉ db.watch l := by
  intro hx; have := (h.wIff l cid).1 ⟨b, hx⟩; rw [hd] at this; simp [Watched] at this

theorem WF.not_long {db : Cdb} (h : db.WF) {cid : Nat} (hd : (db.clause cid).lits.length < 3) (l b : Lit) :
    (cid, b) ∉ db.watch l := by
  intro hx; have := (h.wIff l cid).1 ⟨b, hx⟩; have := this.1; omega

theorem WF.not_bi {db : Cdb} (h : db.WF) {cid : Nat} (hd : (db.clause cid).lits.length ≠ 2) (a b : Lit) :
    (b, cid) ∉ db.blist a := by
  intro hx; rcases (h.bIff a b cid).1 hx with h' | h' <;> rw [h'] at hd <;> simp at hd

theorem WF.not_hash {db : Cdb} (h : db.WF) {cid : Nat} (hd : (db.clause cid).lits.length ≠ 2) (k : Lit × Lit) :
    db.bhash k ≠ some cid := by
  intro hx; obtain ⟨a, b, h', _⟩ := (h.hIff k cid).1 hx; rw [h'] at hd; simp at hd

/-- no binary clause over `a`, `b` when the table has none -/
theorem WF.no_link {db : Cdb} (h : db.WF) {a b : Lit} (hs : db.blSearch a b = none) (i : Nat) :
    (b, i) ∉ db.blist a ∧ (a, i) ∉ db.blist b ∧ (db.clause i).lits ≠ [a, b] ∧ (db.clause i).lits ≠ [b, a] := by
  have k1 : (db.clause i).lits ≠ [a, b] := by
    intro e; have := (h.hIff (bkey a b) i).2 ⟨a, b, e, rfl⟩; unfold blSearch at hs; rw [hs] at this; simp at this
  have k2 : (db.clause i).lits ≠ [b, a] := by
    intro e; have := (h.hIff (bkey a b) i).2 ⟨b, a, e, bkey_comm _ _⟩; unfold blSearch at hs; rw [hs] at this; simp at this
  refine ⟨fun hx => ?_, fun hx => ?_, k1, k2⟩
  · rcases (h.bIff a b i).1 hx with e | e
    · exact k1 e
    · exact k2 e
  · rcases (h.bIff b a i).1 hx with e | e
    · exact k2 e
    · exact k1 e

/-! ## new_clause -/

theorem alloc_spec {db : Cdb} (h : db.WF) (c : Cl) (hc : c.lits ≠ []) :
    let r := db.alloc c
    (db.clause r.2).lits = [] ∧ r.1.clause = upd db.clause r.2 c ∧ r.1.Arena ∧
    r.1.watch = db.watch ∧ r.1.blist = db.blist ∧ r.1.bhash = db.bhash ∧ 0 < r.2 ∧ r.1.cert = db.cert ∧
    r.2 < r.1.len ∧ db.len ≤ r.1.len := by
  obtain ⟨⟨a1, a2, a3, a4, a5⟩, -⟩ := h
  unfold alloc
  cases hf : db.free with
  | nil =>
    rw [hf] at a5
    refine ⟨a3 _ (Nat.le_refl _), rfl, ⟨Nat.succ_pos _, ?_, ?_, ?_, ?_⟩, rfl, rfl, rfl, a1, rfl, Nat.lt_succ_self _, Nat.le_succ _⟩
    · simp only []; rw [upd_of_ne _ _ (by omega)]; exact a2
    · intro i hi; simp only [] at hi ⊢; rw [upd_of_ne _ _ (by omega)]; exact a3 i (by omega)
    · simp
    · intro i
      simp only []
      by_cases e : i = db.len
      · subst e; simp [hc]
      · rw [upd_of_ne _ _ e]
        have := a5 i
        simp only [List.not_mem_nil, false_iff] at this ⊢
        rintro ⟨p1, p2, p3⟩; exact this ⟨p1, by omega, p3⟩
  | cons cid fr =>
    rw [hf] at a4 a5
    have hc1 := (a5 cid).1 (by simp)
    refine ⟨hc1.2.2, rfl, ⟨a1, ?_, ?_, ?_, ?_⟩, rfl, rfl, rfl, hc1.1, rfl, hc1.2.1, Nat.le_refl _⟩
    · simp only []; rw [upd_of_ne _ _ (by omega)]; exact a2
    · intro i hi; simp only [] at hi ⊢; rw [upd_of_ne _ _ (by omega)]; exact a3 i hi
    · exact (List.nodup_cons.1 a4).2
    · intro i
      simp only []
      by_cases e : i = cid
      · subst e; simp [(List.nodup_cons.1 a4).1, hc]
      · rw [upd_of_ne _ _ e]
        have := a5 i
        simp only [List.mem_cons, e, false_or] at this
        exact this

theorem getElem01 {a b : Lit} {tl : Cls} {l : Lit} :
    Watched (a :: b :: tl) l ↔ tl ≠ [] ∧ (l = a.neg ∨ l = b.neg) := by
  unfold Watched
  have e : ∀ x : Lit, (x = l.neg ↔ l = x.neg) := fun x => ⟨fun h => by rw [h]; simp, fun h => by rw [h]; simp⟩
  cases tl <;> simp [e]

theorem attach_clause (db : Cdb) (cid : Nat) (a b : Lit) (t : Bool) : (db.attach cid a b t).clause = db.clause := by
  unfold attach; split <;> rfl

theorem attach_len (db : Cdb) (cid : Nat) (a b : Lit) (t : Bool) :
    (db.attach cid a b t).len = db.len ∧ (db.attach cid a b t).free = db.free ∧ (db.attach cid a b t).cert = db.cert := by
  unfold attach; split <;> exact ⟨rfl, rfl, rfl⟩

/-- the result of linking a new clause into a well-formed database -/
theorem wf_attach {db0 db : Cdb} (h : db0.WF) {cid : Nat} {c : Cl} {a b : Lit} {tl : Cls} (hd : (db0.clause cid).lits = [])
    (hc : c.lits = a :: b :: tl) (hnd : (c.lits.map Lit.var).Nodup) (hsf : 2 ≤ c.searchFrom)
    (hcl : db.clause = upd db0.clause cid c) (hw : db.watch = db0.watch) (hb : db.blist = db0.blist)
    (hh : db.bhash = db0.bhash) (ha : db.Arena) (hno : tl = [] → db0.blSearch a b = none) :
    (db.attach cid a b tl.isEmpty).WF := by
  have hab : a ≠ b ∧ a.var ≠ b.var := by
    rw [hc] at hnd; simp at hnd
    exact ⟨fun e => hnd.1.1 (by rw [e]), hnd.1.1⟩
  have habn : a.neg ≠ b.neg := fun e => hab.1 (Lit.neg_inj.1 e)
  have hNW : db.NodupW := by intro l; rw [hw]; exact h.nw l
  have hNB : db.NodupB := by intro l; rw [hb]; exact h.nb l
  have ha' : (db.attach cid a b tl.isEmpty).Arena := by
    obtain ⟨p1, p2, p3, p4, p5⟩ := ha
    obtain ⟨q2, q3, -⟩ := attach_len db cid a b tl.isEmpty
    have q1 := attach_clause db cid a b tl.isEmpty
    exact ⟨by rw [q2]; exact p1, by rw [q1]; exact p2, by rw [q1, q2]; exact p3, by rw [q3]; exact p4, by rw [q1, q2, q3]; exact p5⟩
  have hcid : ((db.attach cid a b tl.isEmpty).clause cid) = c := by rw [attach_clause, hcl]; simp
  have nW : ∀ l x, (cid, x) ∉ db.watch l := fun l x => by rw [hw]; exact h.watch_ne hd l x
  have nB : ∀ l x, (x, cid) ∉ db.blist l := fun l x => by rw [hb]; exact h.not_bi (by rw [hd]; simp) l x
  have nH : ∀ k, db.bhash k ≠ some cid := fun k => by rw [hh]; exact h.not_hash (by rw [hd]; simp) k
  have hclf : ∀ i, i ≠ cid → ((db.attach cid a b tl.isEmpty).clause i).lits = (db0.clause i).lits ∧
      2 ≤ ((db.attach cid a b tl.isEmpty).clause i).searchFrom := by
    intro i hi; rw [attach_clause, hcl, upd_of_ne _ _ hi]; exact ⟨rfl, h.sf i⟩
  cases tl with
  | nil =>
    have hno := hno rfl
    refine h.of_frame (cid := cid) ⟨hclf, ?_, ?_, ?_⟩ ha' ?_ ?_ ?_ ?_ ?_ ?_ ?_ ?_
    · intro l i x hi; show (i, x) ∈ db.watch l ↔ _; rw [hw]
    · intro l x i hi
      show (x, i) ∈ (db.blAdd a b cid).blist l ↔ _
      rw [mem_blAdd _ hab.1, hb]; simp [hi]
    · intro k i hi
      show (db.blAdd a b cid).bhash k = some i ↔ _
      unfold blAdd; simp only [upd_apply]
      split
      · rename_i hk
        have : db0.bhash k = none := by rw [hk]; exact hno
        simp [this, Ne.symm hi]
      · rw [hh]
    · rw [hcid, hc]; simp
    · rw [hcid]; exact hnd
    · rw [hcid]; exact hsf
    · exact hNW
    · show (db.blAdd a b cid).NodupB
      refine nodup_blAdd hNB hab.1 cid (fun i => ?_) (fun i => ?_)
      · rw [hb]; exact (h.no_link hno i).1
      · rw [hb]; exact (h.no_link hno i).2.1
    · intro l
      rw [hcid, hc, getElem01]
      show (∃ x, (cid, x) ∈ db.watch l) ↔ _
      simp [nW]
    · intro l x
      rw [hcid, hc]
      show (x, cid) ∈ (db.blAdd a b cid).blist l ↔ _
      rw [mem_blAdd _ hab.1]; simp only [nB, false_or]
      simp only [List.cons.injEq, and_true, Prod.mk.injEq]
      constructor
      · rintro (⟨rfl, rfl⟩ | ⟨rfl, rfl⟩) <;> simp
      · rintro (⟨rfl, rfl⟩ | ⟨rfl, rfl⟩) <;> simp
    · intro k
      rw [hcid, hc]
      show (db.blAdd a b cid).bhash k = some cid ↔ _
      unfold blAdd; simp only [upd_apply]
      split
      · rename_i hk; simp only [true_iff]; exact ⟨a, b, rfl, hk⟩
      · rename_i hk
        simp only [nH, false_iff]
        rintro ⟨x, y, e, rfl⟩
        simp at e; exact hk (by rw [e.1, e.2])
  | cons t0 tl =>
    have e1 : (db.attach cid a b (t0 :: tl).isEmpty) = (db.insW a.neg cid b).insW b.neg cid a := rfl
    refine h.of_frame (cid := cid) ⟨hclf, ?_, ?_, ?_⟩ ha' ?_ ?_ ?_ ?_ ?_ ?_ ?_ ?_
    · intro l i x hi; rw [e1, mem_insW, mem_insW, hw]; simp [hi]
    · intro l x i hi; show (x, i) ∈ db.blist l ↔ _; rw [hb]
    · intro k i hi; show db.bhash k = _ ↔ _; rw [hh]
    · rw [hcid, hc]; simp
    · rw [hcid]; exact hnd
    · rw [hcid]; exact hsf
    · rw [e1]
      refine nodup_insW (nodup_insW hNW _ _ _ (nW _)) _ _ _ ?_
      intro x; rw [mem_insW]; simp [nW, Ne.symm habn]
    · exact hNB
    · intro l
      rw [hcid, hc, getElem01, e1]
      simp only [mem_insW, nW, false_or]
      simp
      constructor
      · rintro ⟨x, ⟨rfl, -⟩ | ⟨rfl, -⟩⟩ <;> simp
      · rintro (rfl | rfl)
        · exact ⟨b, .inl ⟨rfl, rfl⟩⟩
        · exact ⟨a, .inr ⟨rfl, rfl⟩⟩
    · intro l x
      rw [hcid, hc]
      show (x, cid) ∈ db.blist l ↔ _
      simp [nB]
    · intro k
      rw [hcid, hc]
      show db.bhash k = _ ↔ _
      simp [nH]

end Cdb
end Splr
