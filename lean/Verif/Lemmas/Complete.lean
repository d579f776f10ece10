import Verif.Model.Complete
import Verif.Spec.Binary
import Verif.Lemmas.CdbOps
import Verif.Lemmas.CdbCount
/-! Completion of binary clauses. -/
namespace Splr

theorem newClause_given {db db' : Cdb} {level : Nat → Nat} {vec : Cls} {r : RefClause} (e : db.newClause level vec false = some (db', r)) :
    db'.numBiLearnt = db.numBiLearnt ∧ db'.numLbd2 = db.numLbd2 := by
  have ha : ∀ (d : Cdb) (c : Cl), (d.alloc c).1.numBiLearnt = d.numBiLearnt ∧ (d.alloc c).1.numLbd2 = d.numLbd2 := by
    intro d c; unfold Cdb.alloc; cases d.free <;> exact ⟨rfl, rfl⟩
  unfold Cdb.newClause at e
  split at e
  next l0 l1 tl =>
    split at e
    next =>
      simp only [Option.some.injEq, Prod.mk.injEq] at e
      obtain ⟨rfl, -⟩ := e
      exact ⟨rfl, rfl⟩
    next =>
      simp only [Option.some.injEq, Prod.mk.injEq] at e
      obtain ⟨e, -⟩ := e
      rw [← e]
      unfold Cdb.attach
      split
      · exact ha (db.log _) _
      · exact ha (db.log _) _
  next => simp at e

/-- What adding `adds` does. -/
structure Grown (db db' : Cdb) (adds : List Cls) : Prop where
  wf : db'.WF
  keep : ∀ i, (db.clause i).lits ≠ [] → db'.clause i = db.clause i
  held : ∀ c, Held db' c ↔ Held db c ∨ c ∈ adds
  new : ∀ c ∈ adds, ¬ Held db c
  prim : ∀ i, (db.clause i).lits = [] → (db'.clause i).learnt = true → (db'.clause i).lits = []
  cert : db'.cert = db.cert ++ adds.map CertRec.add
  nc : db'.numClause = db.numClause + adds.length
  nbc : db'.numBiClause = db.numBiClause + adds.length
  nl : db'.numLearnt = db.numLearnt ∧ db'.numBiLearnt = db.numBiLearnt ∧ db'.numLbd2 = db.numLbd2

theorem Grown.refl {db : Cdb} (h : db.WF) : Grown db db [] := ⟨h, fun _ _ => rfl, by simp, by simp, fun _ h _ => h, by simp, by simp, by simp, rfl, rfl, rfl⟩

theorem Grown.trans {d0 d1 d2 : Cdb} {xs ys : List Cls} (h1 : Grown d0 d1 xs) (h2 : Grown d1 d2 ys) : Grown d0 d2 (xs ++ ys) := by
  refine ⟨h2.wf, fun i hi => ?_, fun c => ?_, fun c hc h => ?_, fun i hi hl => ?_, ?_, ?_, ?_, ?_⟩
  · rw [h2.keep i (by rw [h1.keep i hi]; exact hi), h1.keep i hi]
  · rw [h2.held, h1.held, List.mem_append, or_assoc]
  · rcases List.mem_append.1 hc with hc | hc
    · exact h1.new c hc h
    · exact h2.new c hc ((h1.held c).2 (.inl h))
  · by_cases h : (d1.clause i).lits = []
    · exact h2.prim i h hl
    · rw [h2.keep i h] at hl ⊢
      exact h1.prim i hi hl
  · rw [h2.cert, h1.cert]; simp
  · rw [h2.nc, h1.nc, List.length_append]; push_cast; omega
  · rw [h2.nbc, h1.nbc, List.length_append]; push_cast; omega
  · obtain ⟨a1, a2, a3⟩ := h1.nl
    obtain ⟨b1, b2, b3⟩ := h2.nl
    exact ⟨b1.trans a1, b2.trans a2, b3.trans a3⟩

theorem newPair_spec {db : Cdb} (h : db.WF) {level : Nat → Nat} {a b : Lit} (hv : a.var ≠ b.var) :
    ∃ db' r adds, db.newClause level [a, b] false = some (db', r) ∧ Grown db db' adds ∧ (∀ c ∈ adds, c = [a, b]) ∧ Pair db' a b := by
  obtain ⟨⟨db', r⟩, e⟩ := Cdb.newClause_isSome db level [a, b] false (by simp)
  obtain ⟨w, h'⟩ := Cdb.newClause_spec h (by simpa using hv) e
  rcases h' with ⟨cid, x, y, hr, rfl, hv, hc⟩ | ⟨cid, c, hr, h0, hlt, hold, hcl, h2, hsf, hlr, hbl, hcc, hcert⟩
  · simp only [List.cons.injEq, and_true] at hv
    obtain ⟨rfl, rfl⟩ := hv
    refine ⟨_, _, [], e, .refl h, by simp, ?_⟩
    rcases hc with hc | hc
    · exact .inl ⟨by simp, cid, hc⟩
    · exact .inr ⟨by simp, cid, hc⟩
  · have hno := h.no_link (hbl a b rfl)
    subst hr
    obtain ⟨k1, k2, k3, -⟩ := Cdb.newClause_counters e
    have k4 := newClause_given e
    refine ⟨_, _, [[a, b]], e, ⟨w, fun i hi => ?_, fun c' => ?_, ?_, fun i hi hl => ?_, by simpa using hcert, by simpa using k1, by simpa using k2, by simpa using k3, k4⟩, by simp, ?_⟩
    · rw [hcc, upd_of_ne]; rintro rfl; exact hi hold
    · constructor
      · rintro ⟨hne, i, hi⟩
        by_cases ei : i = cid
        · subst ei; rw [hcc, upd_same, hcl] at hi; exact .inr (by simp [hi])
        · rw [hcc, upd_of_ne _ _ ei] at hi; exact .inl ⟨hne, i, hi⟩
      · rintro (⟨hne, i, hi⟩ | hm)
        · refine ⟨hne, i, ?_⟩
          rw [hcc, upd_of_ne]; exact hi
          rintro rfl; exact hne (hi.symm.trans hold)
        · simp at hm; subst hm
          exact ⟨by simp, cid, by rw [hcc, upd_same, hcl]⟩
    · intro c' hc' hh
      simp at hc'; subst hc'
      obtain ⟨-, i, hi⟩ := hh
      exact (hno i).2.2.1 hi
    · by_cases ei : i = cid
      · subst ei; rw [hcc, upd_same, hlr] at hl; simp at hl
      · rw [hcc, upd_of_ne _ _ ei]; exact hi
    · exact .inl ⟨by simp, cid, by rw [hcc, upd_same, hcl]⟩

theorem addPairs_spec {level : Nat → Nat} : ∀ (cs : List Cls) {db : Cdb} (_ : db.WF) (n : Nat) (_ : ∀ c ∈ cs, ∃ a b : Lit, c = [a, b] ∧ a.var ≠ b.var),
    ∃ db' adds, addPairs level cs (db, n) = some (db', n + cs.length) ∧ Grown db db' adds ∧ (∀ c ∈ adds, c ∈ cs) ∧
      ∀ a b, [a, b] ∈ cs → Pair db' a b
  | [], db, h, n, _ => ⟨db, [], rfl, .refl h, by simp, by simp⟩
  | c :: cs, db, h, n, hc => by
    obtain ⟨a, b, rfl, hab⟩ := hc c (by simp)
    obtain ⟨d1, r, xs, e1, g1, hx, p1⟩ := newPair_spec h (level := level) hab
    obtain ⟨d2, ys, e2, g2, hy, p2⟩ := addPairs_spec cs g1.wf (n + 1) fun c hc' => hc c (by simp [hc'])
    refine ⟨d2, xs ++ ys, ?_, g1.trans g2, ?_, ?_⟩
    · rw [addPairs, e1]
      simp only
      rw [e2]; congr 2; simp; omega
    · intro c hm
      rcases List.mem_append.1 hm with hm | hm
      · rw [hx c hm]; simp
      · exact List.mem_cons_of_mem _ (hy c hm)
    · intro x y hm
      rcases List.mem_cons.1 hm with hm | hm
      · simp only [List.cons.injEq, and_true] at hm
        obtain ⟨rfl, rfl⟩ := hm
        rcases p1 with p | p
        · exact .inl ((g2.held _).2 (.inl p))
        · exact .inr ((g2.held _).2 (.inl p))
      · exact p2 x y hm

theorem mem_blist {db : Cdb} (h : db.WF) {a b : Lit} : (∃ i, (b, i) ∈ db.blist a) ↔ Pair db a b := by
  unfold Pair Held
  constructor
  · rintro ⟨i, hi⟩
    rcases (h.bIff a b i).1 hi with e | e
    · exact .inl ⟨by simp, i, e⟩
    · exact .inr ⟨by simp, i, e⟩
  · rintro (⟨-, i, e⟩ | ⟨-, i, e⟩)
    · exact ⟨i, (h.bIff a b i).2 (.inl e)⟩
    · exact ⟨i, (h.bIff a b i).2 (.inr e)⟩

theorem blSearch_none {db : Cdb} (h : db.WF) {a b : Lit} : db.blSearch a b = none ↔ ¬ Pair db a b := by
  constructor
  · rintro hs (⟨-, i, e⟩ | ⟨-, i, e⟩)
    · exact (h.no_link hs i).2.2.1 e
    · exact (h.no_link hs i).2.2.2 e
  · intro hp
    cases hs : db.blSearch a b with
    | none => rfl
    | some i =>
      obtain ⟨x, y, e1, e2⟩ := (h.hIff _ _).1 hs
      rcases bkey_eq.1 e2 with ⟨rfl, rfl⟩ | ⟨rfl, rfl⟩
      · exact absurd (.inl ⟨by simp, i, e1⟩) hp
      · exact absurd (.inr ⟨by simp, i, e1⟩) hp

theorem mem_resolvents {db : Cdb} (h : db.WF) {lit : Lit} {c : Cls} : c ∈ db.resolvents lit ↔
    ∃ other third, Pair db lit other ∧ Pair db other.neg third ∧ lit.var ≠ third.var ∧ ¬ Pair db lit third ∧ c = [lit, third] := by
  unfold Cdb.resolvents
  simp only [List.mem_flatMap, List.mem_filterMap, Option.ite_none_right_eq_some, Option.some.injEq]
  constructor
  · rintro ⟨⟨o, i⟩, ho, ⟨t, j⟩, ht, ⟨hv, hs⟩, rfl⟩
    exact ⟨o, t, (mem_blist h).1 ⟨i, ho⟩, (mem_blist h).1 ⟨j, ht⟩, hv, (blSearch_none h).1 hs, rfl⟩
  · rintro ⟨o, t, ho, ht, hv, hs, rfl⟩
    obtain ⟨i, ho⟩ := (mem_blist h).2 ho
    obtain ⟨j, ht⟩ := (mem_blist h).2 ht
    exact ⟨(o, i), ho, (t, j), ht, ⟨hv, (blSearch_none h).2 hs⟩, rfl⟩

/-- One literal. -/
theorem completeWith_spec {db : Cdb} (h : db.WF) (level : Nat → Nat) (lit : Lit) (n : Nat) :
    ∃ db' adds, completeWith level lit (db, n) = some (db', n + (db.resolvents lit).length) ∧ Grown db db' adds ∧
      (∀ c ∈ adds, c ∈ db.resolvents lit) ∧ ∀ a b, [a, b] ∈ db.resolvents lit → Pair db' a b :=
  addPairs_spec _ h n fun c hc => by
    obtain ⟨o, t, -, -, hv, -, rfl⟩ := (mem_resolvents h).1 hc
    exact ⟨lit, t, rfl, hv⟩

end Splr
