import Verif.Lemmas.Complete
import Verif.Lemmas.ReachSpec
import Verif.Props.C03_C11_Search
/-!
# C74: the completion of binary clauses

With the feature `bi_clause_completion`, after a clause of two literals has been learnt, the resolvents of clauses of two
literals with its literals are added.
-/
namespace Splr
open Stk

theorem Pair.symm {db : Cdb} {a b : Lit} (h : Pair db a b) : Pair db b a := Or.symm h

theorem Pair.sat {db : Cdb} {a b : Lit} (h : Pair db a b) {v : Asg} (hv : ∀ c, Held db c → Cls.sat v c) : a.sat v ∨ b.sat v := by
  rcases h with h | h <;> have := hv _ h <;> simp [Cls.sat] at this <;> tauto

theorem BiResolvent.sat {db : Cdb} {c : Cls} (h : BiResolvent db c) {v : Asg} (hv : ∀ c, Held db c → Cls.sat v c) : Cls.sat v c := by
  obtain ⟨a, b, d, rfl, -, h1, h2⟩ := h
  have h1 := h1.sat hv
  have h2 := h2.sat hv
  simp [Cls.sat] at *
  tauto

theorem Pair.unit {db : Cdb} {G : Form} (hG : ∀ c, Held db c → c ∈ G) {A : Lit → Prop} {a b : Lit} (h : Pair db a b) (ha : UP G A a.neg) : UP G A b := by
  rcases h with h | h
  · refine .unit (hG _ h) (by simp) fun m hm hne => ?_
    simp at hm; rcases hm with rfl | rfl
    · exact ha
    · exact absurd rfl hne
  · refine .unit (hG _ h) (by simp) fun m hm hne => ?_
    simp at hm; rcases hm with rfl | rfl
    · exact absurd rfl hne
    · exact ha

theorem BiResolvent.rup {db : Cdb} {c : Cls} (h : BiResolvent db c) {G : Form} (hG : ∀ c, Held db c → c ∈ G) : RUP G c := by
  obtain ⟨a, b, d, rfl, -, h1, h2⟩ := h
  right
  have hb : UP G (fun l => l.neg ∈ [a, d]) b := h1.unit hG (.assume (by simp))
  exact ⟨d, h2.unit hG (by simpa using hb), .assume (by simp)⟩

theorem Grown.quiet {db db' : Cdb} {adds : List Cls} (h : Grown db db' adds) (hr : ∀ c ∈ adds, BiResolvent db c) {a : Nat → Option Bool}
    (hq : AtRest db a) : AtRest db' a := by
  have key : ∀ x y, [x, y] ∈ adds → (a x.var = some (!x.pos) → a y.var = some y.pos) ∧ (a y.var = some (!y.pos) → a x.var = some x.pos) := by
    intro x y hm
    obtain ⟨p, b, q, e, -, h1, h2⟩ := hr _ hm
    simp only [List.cons.injEq, and_true] at e
    obtain ⟨rfl, rfl⟩ := e
    constructor
    · intro hx
      exact hq _ _ h2 (by simpa using hq _ _ h1 hx)
    · intro hy
      have := hq _ _ h2.symm hy
      exact hq _ _ h1.symm (by simpa using this)
  intro x y hp hx
  rcases hp with hp | hp
  · rcases (h.held _).1 hp with hp | hp
    · exact hq x y (.inl hp) hx
    · exact (key x y hp).1 hx
  · rcases (h.held _).1 hp with hp | hp
    · exact hq x y (.inr hp) hx
    · exact (key y x hp).2 hx

/-- **C74**, one literal, in any state of the search: the clauses added are resolvents of two held clauses of two literals on another
literal, and all of those with `lit` are held afterwards. No clause is changed or moved. -/
theorem C74_resolvents {cfg : Cfg} {F : Form} {db : Cdb} {s : Stk} (h : Visited cfg F db s) (lit : Lit) (n : Nat) :
    ∃ db' n', completeWith s.level lit (db, n) = some (db', n') ∧ (∀ i, (db.clause i).lits ≠ [] → db'.clause i = db.clause i) ∧
      (∀ c, Held db' c → Held db c ∨ lit ∈ c ∧ BiResolvent db c) ∧
      ∀ other third, Pair db lit other → Pair db other.neg third → lit.var ≠ third.var → Pair db' lit third := by
  have hw := h.inv.wf
  obtain ⟨db', adds, e, hg, ha, hp⟩ := completeWith_spec hw s.level lit n
  refine ⟨db', _, e, hg.keep, fun c hc => ?_, fun o t ho ht hv => ?_⟩
  · rcases (hg.held c).1 hc with hc | hc
    · exact .inl hc
    · obtain ⟨o, t, h1, h2, h3, -, rfl⟩ := (mem_resolvents hw).1 (ha c hc)
      exact .inr ⟨by simp, lit, o, t, rfl, h3, h1, h2⟩
  · by_cases hp' : Pair db lit t
    · rcases hp' with p | p
      · exact .inl ((hg.held _).2 (.inl p))
      · exact .inr ((hg.held _).2 (.inl p))
    · exact hp lit t ((mem_resolvents hw).2 ⟨o, t, ho, ht, hv, hp', rfl⟩)

/-- A sequence of clauses in which each is a resolvent. -/
inductive Completes : Cdb → Cdb → List Cls → Prop
  | done {db : Cdb} (h : db.WF) : Completes db db []
  | more {d0 d1 d2 : Cdb} {xs ys : List Cls} (h1 : Grown d0 d1 xs) (hr : ∀ c ∈ xs, BiResolvent d0 c) (h2 : Completes d1 d2 ys) : Completes d0 d2 (xs ++ ys)

theorem Completes.grown {db db' : Cdb} {adds : List Cls} (h : Completes db db' adds) : Grown db db' adds := by
  induction h with
  | done h => exact .refl h
  | more h1 _ _ ih => exact h1.trans ih

theorem Grown.pair {db db' : Cdb} {adds : List Cls} (h : Grown db db' adds) {a b : Lit} (hp : Pair db a b) : Pair db' a b :=
  hp.imp (fun p => (h.held _).2 (.inl p)) fun p => (h.held _).2 (.inl p)

theorem completeAll_chain {level : Nat → Nat} : ∀ (q : List Lit) {db : Cdb} (_ : db.WF) (n : Nat),
    ∃ db' n' adds, completeAll level q (db, n) = some (db', n') ∧ Completes db db' adds ∧
      ∀ lit ∈ q, ∀ other third, Pair db lit other → Pair db other.neg third → lit.var ≠ third.var → Pair db' lit third
  | [], db, h, n => ⟨db, n, [], rfl, .done h, by simp⟩
  | l :: q, db, h, n => by
    obtain ⟨d1, xs, e, hg, ha, hp⟩ := completeWith_spec h level l n
    obtain ⟨d2, n2, ys, e2, hc, hq⟩ := completeAll_chain q hg.wf (n + (db.resolvents l).length)
    refine ⟨d2, n2, xs ++ ys, by rw [completeAll, e]; exact e2, .more hg (fun c hc => ?_) hc, ?_⟩
    · obtain ⟨o, t, h1, h2, h3, -, rfl⟩ := (mem_resolvents h).1 (ha c hc)
      exact ⟨l, o, t, rfl, h3, h1, h2⟩
    · intro lit hl o t h1 h2 h3
      rcases List.mem_cons.1 hl with rfl | hl
      · refine hc.grown.pair ?_
        by_cases hp' : Pair db lit t
        · exact hg.pair hp'
        · exact hp lit t ((mem_resolvents h).2 ⟨o, t, h1, h2, h3, hp', rfl⟩)
      · exact hq lit hl o t (hg.pair h1) (hg.pair h2) h3

theorem Completes.sat {db db' : Cdb} {adds : List Cls} (h : Completes db db' adds) {v : Asg} (hv : ∀ c, Held db c → Cls.sat v c) :
    ∀ c, Held db' c → Cls.sat v c := by
  induction h with
  | done => exact hv
  | more h1 hr _ ih =>
    refine ih fun c hc => ?_
    rcases (h1.held c).1 hc with hc | hc
    · exact hv c hc
    · exact (hr c hc).sat hv

theorem Completes.quiet {db db' : Cdb} {adds : List Cls} (h : Completes db db' adds) {a : Nat → Option Bool} (hq : AtRest db a) : AtRest db' a := by
  induction h with
  | done => exact hq
  | more h1 hr _ ih => exact ih (h1.quiet hr hq)

theorem Completes.rup {db db' : Cdb} {adds : List Cls} (h : Completes db db' adds) : ∀ {G : Form}, (∀ c, Held db c → c ∈ G) →
    ∀ pre c post, adds = pre ++ c :: post → RUP (G ++ pre) c := by
  induction h with
  | done => intro G _ pre c post e; simp at e
  | @more d0 d1 d2 xs ys h1 hr _ ih =>
    intro G hG pre c post e
    rcases List.append_eq_append_iff.1 e with ⟨z, rfl, e'⟩ | ⟨z, rfl, e'⟩
    · have := ih (G := G ++ xs) (fun c hc => by
        rcases (h1.held c).1 hc with hc | hc
        · exact List.mem_append_left _ (hG c hc)
        · exact List.mem_append_right _ hc) z c post e'
      rwa [List.append_assoc] at this
    · cases z with
      | nil =>
        simp at e'
        have := ih (G := G ++ pre) (fun c hc => by
          rcases (h1.held c).1 hc with hc | hc
          · exact List.mem_append_left _ (hG c hc)
          · exact List.mem_append_right _ (by simpa using hc)) [] c post (by simp [e'])
        simpa using this
      | cons z zs =>
        simp only [List.cons_append, List.cons.injEq] at e'
        obtain ⟨rfl, -⟩ := e'
        exact (hr c (by simp)).rup fun c hc => List.mem_append_left _ (hG c hc)

theorem Completes.len {db db' : Cdb} {adds : List Cls} (h : Completes db db' adds) : ∀ c ∈ adds, c.length = 2 := by
  induction h with
  | done => simp
  | more _ hr _ ih =>
    intro c hc
    rcases List.mem_append.1 hc with hc | hc
    · obtain ⟨a, b, d, rfl, -⟩ := hr c hc; rfl
    · exact ih c hc

/-- **C74**: in any state of the search and for any queue of literals, the completion ends without a panic. It adds clauses of two
literals that are neither marked nor counted as learnt, among them all missing resolvents of the literals of the queue, and changes no other
clause. The models of the held clauses stay the same, each new
clause is logged, and in the order of the log each is RUP. No pair of literals is stored twice. Every literal that
unit propagation could derive with the new clauses, it derives without them: an assignment at rest for the old clauses of two literals
is at rest for the new ones. -/
theorem C74_completion {cfg : Cfg} {F : Form} {db : Cdb} {s : Stk} (h : Visited cfg F db s) (q : List Lit) (n : Nat) :
    ∃ db' n' adds, completeAll s.level q (db, n) = some (db', n') ∧
      (∀ i, (db.clause i).lits ≠ [] → db'.clause i = db.clause i) ∧
      (∀ c, Held db' c ↔ Held db c ∨ c ∈ adds) ∧
      (∀ c ∈ adds, c.length = 2 ∧ ¬ Held db c) ∧
      (∀ lit ∈ q, ∀ other third, Pair db lit other → Pair db other.neg third → lit.var ≠ third.var → Pair db' lit third) ∧
      (∀ i, (db.clause i).lits = [] → (db'.clause i).lits ≠ [] → (db'.clause i).learnt = false) ∧
      (∀ b, IsModel db s b ↔ IsModel db' s b) ∧
      (db'.numClause = db.numClause + adds.length ∧ db'.numBiClause = db.numBiClause + adds.length ∧ db'.numLearnt = db.numLearnt ∧
        db'.numBiLearnt = db.numBiLearnt) ∧
      db'.cert = db.cert ++ adds.map CertRec.add ∧
      (∀ G, (∀ c, Held db c → c ∈ G) → ∀ pre c post, adds = pre ++ c :: post → RUP (G ++ pre) c) ∧
      (∀ i j a b, (db'.clause i).lits = [a, b] → ((db'.clause j).lits = [a, b] ∨ (db'.clause j).lits = [b, a]) → i = j) ∧
      ∀ a, AtRest db a → AtRest db' a := by
  have hw := h.inv.wf
  obtain ⟨db', n', adds, e, hc, hq⟩ := completeAll_chain (level := s.level) q hw n
  have hg := hc.grown
  refine ⟨db', n', adds, e, hg.keep, hg.held, fun c hm => ⟨hc.len c hm, hg.new c hm⟩, hq, fun i h1 h2 => ?_, fun b => ?_, ⟨hg.nc, hg.nbc, hg.nl.1, hg.nl.2.1⟩, hg.cert,
    fun G hG => hc.rup hG, fun i j a b hi hj => ?_, fun a => hc.quiet⟩
  · cases hl : (db'.clause i).learnt with
    | false => rfl
    | true => exact absurd (hg.prim i h1 hl) h2
  · exact ⟨fun hb => ⟨hc.sat hb.1, hb.2⟩, fun hb => ⟨fun c hh => hb.1 c ((hg.held c).2 (.inl hh)), hb.2⟩⟩
  · have h1 := (hg.wf.hIff (bkey a b) i).2 ⟨a, b, hi, rfl⟩
    have h2 : db'.bhash (bkey a b) = some j := by
      rcases hj with hj | hj
      · exact (hg.wf.hIff (bkey a b) j).2 ⟨a, b, hj, rfl⟩
      · exact (hg.wf.hIff (bkey a b) j).2 ⟨b, a, hj, bkey_eq.2 (.inr ⟨rfl, rfl⟩)⟩
    rw [h1] at h2; simpa using h2

/-- Five clauses of two literals: 1 ∨ 4 follows in two ways, then 1 ∨ 5. -/
def exBins : List (List Int) := [[1, 2], [1, 3], [-2, 4], [-3, 4], [-4, 5]]

/-- A clause of the two variables is in the database. -/
def hasPair (db : Cdb) (a b : Lit) : Bool := (List.range db.len).any fun i => (db.clause i).lits == [a, b] || (db.clause i).lits == [b, a]

theorem hasPair_iff {db : Cdb} (h : db.WF) {a b : Lit} : hasPair db a b = true ↔ Pair db a b := by
  unfold hasPair Pair Held
  simp only [List.any_eq_true, List.mem_range, Bool.or_eq_true, beq_iff_eq]
  constructor
  · rintro ⟨i, -, e | e⟩
    · exact .inl ⟨by simp, i, e⟩
    · exact .inr ⟨by simp, i, e⟩
  · have key : ∀ i, (db.clause i).lits ≠ [] → i < db.len := fun i hi => by
      by_contra hc
      exact hi (h.arena.big i (by omega))
    rintro (⟨-, i, e⟩ | ⟨-, i, e⟩)
    · exact ⟨i, key i (by rw [e]; simp), .inl e⟩
    · exact ⟨i, key i (by rw [e]; simp), .inr e⟩

/-- **C74**, the limits of it. The counter `num_bi_clause_completion` counts a clause once for each way to derive it: here it says 2, but one
clause was added. And the clauses of two literals are not closed under resolution afterwards: 1 ∨ 4 was added and ¬4 ∨ 5 is held, but 1 ∨ 5
is not. The queue is that of learning 1 ∨ 2. -/
theorem C74_limits : ∃ db s db', Visited {} (exBins.map clsOf) db s ∧
    completeAll s.level (completionQueue [] [⟨1, true⟩, ⟨2, true⟩]).reverse (db, 0) = some (db', 2) ∧ db'.numClause = db.numClause + 1 ∧
    Pair db' ⟨1, true⟩ ⟨4, true⟩ ∧ Pair db' ⟨4, false⟩ ⟨5, true⟩ ∧ ¬ Pair db' ⟨1, true⟩ ⟨5, true⟩ := by
  have hb : Built (exBins.map clsOf) (exSolver 5 exBins) := exBuilt (by decide +kernel)
  have hv : Visited {} (exBins.map clsOf) (exSolver 5 exBins).db (exSolver 5 exBins).s := .inner (.built hb)
  have h : (completeAll (exSolver 5 exBins).s.level (completionQueue [] [⟨1, true⟩, ⟨2, true⟩]).reverse ((exSolver 5 exBins).db, 0)).any
      (fun y => decide (y.2 = 2 ∧ y.1.numClause = (exSolver 5 exBins).db.numClause + 1 ∧ hasPair y.1 ⟨1, true⟩ ⟨4, true⟩ = true ∧
        hasPair y.1 ⟨4, false⟩ ⟨5, true⟩ = true ∧ hasPair y.1 ⟨1, true⟩ ⟨5, true⟩ = false)) = true := by decide +kernel
  obtain ⟨⟨db', n⟩, e, h⟩ := (Option.any_eq_true _ _).1 h
  simp only [decide_eq_true_eq] at h
  obtain ⟨rfl, h1, h2, h3, h4⟩ := h
  obtain ⟨d2, n2, adds, e2, hc, -⟩ := completeAll_chain (level := (exSolver 5 exBins).s.level)
    (completionQueue [] [⟨1, true⟩, ⟨2, true⟩]).reverse hv.inv.wf 0
  have e := e.symm.trans e2
  simp only [Option.some.injEq, Prod.mk.injEq] at e
  obtain ⟨rfl, rfl⟩ := e
  have hw := hc.grown.wf
  refine ⟨_, _, db', hv, e2, h1, (hasPair_iff hw).1 h2, (hasPair_iff hw).1 h3, fun hp => ?_⟩
  rw [(hasPair_iff hw).2 hp] at h4
  simp at h4

end Splr
