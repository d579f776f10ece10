import Verif.Lemmas.CdbCount
/-!
# C09, C19 (database part), C20, C21, C22, C33: the clause database

`DbReach db`: `db` is the result of any sequence of database operations on a fresh database (Model/CdbRun.lean).
-/
namespace Splr
open Cdb

/-! ## a concrete history -/

def exL (v : Nat) (b : Bool) : Lit := ⟨v, b⟩

/-- `new_clause` without its result -/
def newD (db : Cdb) (level : Nat → Nat) (vec : Cls) (learnt : Bool) : Cdb :=
  match db.newClause level vec learnt with
  | some (d, _) => d
  | none => db

theorem newD_reach {db : Cdb} (h : DbReach db) (level : Nat → Nat) (vec : Cls) (learnt : Bool) (hn : (vec.map Lit.var).Nodup) :
    DbReach (newD db level vec learnt) := by
  unfold newD
  split
  · rename_i e; exact h.step (.new level vec learnt hn e)
  · exact h

/-- three clauses, two of them long -/
def exDb0 : Cdb :=
  newD (newD (newD Cdb.new (fun _ => 0) [exL 1 true, exL 2 true, exL 3 true] false) (fun _ => 0) [exL 1 false, exL 2 true] false)
    (fun v => v) [exL 3 false, exL 4 true, exL 5 true, exL 6 true] true

theorem exDb0_reach : DbReach exDb0 :=
  newD_reach (newD_reach (newD_reach DbReach.new _ _ _ (by decide)) _ _ _ (by decide)) _ _ _ (by decide)

/-! ## C09 -/

/-- **C09**, long clauses: clause `i` is registered exactly once under each of the negations of its first two literals and
nowhere else; clauses with fewer than three literals (binary or deleted) are not registered at all. -/
theorem C09_watch_lists {db : Cdb} (h : DbReach db) (l : Lit) (i : Nat) :
    ((db.watch l).map Prod.fst).count i =
      if 3 ≤ (db.clause i).lits.length ∧ ((db.clause i).lits[0]? = some l.neg ∨ (db.clause i).lits[1]? = some l.neg)
      then 1 else 0 := by
  have w := reach_wf h
  have hi := w.wIff l i
  have hm : i ∈ (db.watch l).map Prod.fst ↔ ∃ b, (i, b) ∈ db.watch l := by simp
  unfold Watched at hi
  split
  · rename_i hc
    exact List.count_eq_one_of_mem (w.nw l) (hm.2 (hi.2 hc))
  · rename_i hc
    rw [List.count_eq_zero]
    intro hx; exact hc (hi.1 (hm.1 hx))

/-- **C09**, binary clauses: the pair (other literal, id) is linked exactly once under each of the two literals. -/
theorem C09_binary_links {db : Cdb} (h : DbReach db) (a b : Lit) (i : Nat) :
    (db.blist a).count (b, i) = if (db.clause i).lits = [a, b] ∨ (db.clause i).lits = [b, a] then 1 else 0 := by
  have w := reach_wf h
  have hi := w.bIff a b i
  split
  · rename_i hc
    exact List.count_eq_one_of_mem (List.Nodup.of_map _ (w.nb a)) (hi.2 hc)
  · rename_i hc
    rw [List.count_eq_zero]; exact fun hx => hc (hi.1 hx)

/-- **C09**: no list mentions a deleted clause. -/
theorem C09_no_dead {db : Cdb} (h : DbReach db) (l : Lit) (i : Nat) (hd : (db.clause i).lits = []) :
    i ∉ (db.watch l).map Prod.fst ∧ i ∉ (db.blist l).map Prod.snd := by
  have w := reach_wf h
  constructor
  · have := C09_watch_lists h l i
    rw [hd] at this; simp only [List.length_nil, Nat.not_succ_le_zero, false_and, if_false] at this
    exact List.count_eq_zero.1 this
  · intro hx
    obtain ⟨⟨b, j⟩, hj, rfl⟩ := List.mem_map.1 hx
    rcases (w.bIff l b j).1 hj with e | e <;> simp only [] at hd <;> rw [hd] at e <;> simp at e

/-- Live clauses have at least two literals, over distinct variables. -/
theorem C09_clause_shape {db : Cdb} (h : DbReach db) (i : Nat) (hl : (db.clause i).lits ≠ []) :
    2 ≤ (db.clause i).lits.length ∧ ((db.clause i).lits.map Lit.var).Nodup :=
  ⟨(reach_wf h).len2 i hl, (reach_wf h).nd i⟩

example : ((exDb0.watch (exL 1 false)).map Prod.fst).count 1 = 1 ∧ (exDb0.blist (exL 2 true)).count (exL 1 false, 2) = 1 ∧
    (exDb0.watch (exL 3 true)).map Prod.fst = [3] := by decide +kernel

/-! ## C20 -/

/-- **C20**: an id returned by `new_clause` was not in use: its former clause, if any, had been deleted; the new clause is
stored under it, and every other id keeps its clause. -/
theorem C20_fresh_id {db db' : Cdb} (h : DbReach db) (level : Nat → Nat) (vec : Cls) (learnt : Bool) (cid : Nat)
    (hn : (vec.map Lit.var).Nodup) (e : db.newClause level vec learnt = some (db', .clause cid)) :
    0 < cid ∧ (db.clause cid).lits = [] ∧ (db'.clause cid).lits = vec ∧ vec ≠ [] ∧
      ∀ i, i ≠ cid → db'.clause i = db.clause i := by
  obtain ⟨w', ⟨cid', a, b, hr, -⟩ | ⟨cid', c, hr, h0, hlt, hd, hv, h2, -, hle, -, hc, -⟩⟩ := newClause_spec (reach_wf h) hn e
  · simp at hr
  · simp at hr; subst hr
    refine ⟨h0, hd, by rw [hc]; simp [hv], ?_, fun i hi => by rw [hc, upd_of_ne _ _ hi]⟩
    intro e; rw [e] at h2; simp at h2

/-- **C20**: an operation other than creation never puts a clause under a dead id, and never touches the literals of two
clauses at once other than by deleting them. -/
theorem C20_no_resurrection {db db' : Cdb} (h : DbReach db) (s : DbStep db db') (i : Nat) (hd : (db.clause i).lits = [])
    (hl : (db'.clause i).lits ≠ []) :
    ∃ level vec learnt, db.newClause level vec learnt = some (db', .clause i) ∧ (db'.clause i).lits = vec := by
  have w := reach_wf h
  cases s with
  | new level vec learnt hn e =>
    obtain ⟨w', ⟨cid', a, b, hr, rfl, -⟩ | ⟨cid', c, hr, h0, hlt, hd', hv, h2, -, hle, -, hc, -⟩⟩ := newClause_spec w hn e
    · exact absurd hd hl
    · by_cases hi : i = cid'
      · subst hi; refine ⟨level, vec, learnt, by rw [e, hr], by rw [hc]; simp [hv]⟩
      · rw [hc, upd_of_ne _ _ hi] at hl; exact absurd hd hl
  | remove cid e =>
    obtain ⟨-, -, hc, -⟩ := removeClause_spec w e
    rw [hc] at hl; simp only [upd_apply] at hl; split at hl
    · simp at hl
    · exact absurd hd hl
  | strengthen cid p hp e =>
    obtain ⟨d, r, e', w', -, hcl, -⟩ := transformByElimination_spec w hp
    rw [e] at e'; simp at e'; obtain ⟨rfl, rfl⟩ := e'
    by_cases hi : i = cid
    · subst hi; rw [hd] at hp; simp at hp
    · rw [hcl i hi] at hl; exact absurd hd hl
  | simplify asg elim cid hne e =>
    obtain ⟨d, r, e', w', -, hcl, -⟩ := transformBySimplification_spec (asg := asg) (elim := elim) w hne
    rw [e] at e'; simp at e'; obtain ⟨rfl, rfl⟩ := e'
    by_cases hi : i = cid
    · subst hi; exact absurd hd hne
    · rw [hcl i hi] at hl; exact absurd hd hl
  | swap cid hne =>
    unfold swapWatch setC at hl; simp only [upd_apply] at hl
    split at hl
    · rename_i hi; subst hi; exact absurd hd hne
    · exact absurd hd hl
  | restore l idx op =>
    unfold restoreWatch at hl; cases op <;> exact absurd hd hl
  | move l idx cid old k sf b lk other hi ho ha hb h2 hk hs =>
    obtain ⟨-, hc, -⟩ := moveWatch_spec w hi ho ha hb h2 hk hs
    rw [hc] at hl; simp only [upd_apply] at hl; split at hl
    · rename_i hi; subst hi; rw [hd] at hk; simp at hk
    · exact absurd hd hl
  | reduce level victims e =>
    obtain ⟨d, e', -, -, hcl⟩ := reduce_spec w level victims
    rw [e] at e'; simp at e'; subst e'
    rcases hcl i with ⟨h1, -⟩ | ⟨h1, -, -, h2⟩
    · rw [h1] at hl; exact absurd hd hl
    · exact absurd h2 hl

/-- The freelist holds exactly the dead ids, each once. -/
theorem C20_freelist {db : Cdb} (h : DbReach db) (i : Nat) :
    db.free.count i = if 0 < i ∧ i < db.len ∧ (db.clause i).lits = [] then 1 else 0 := by
  obtain ⟨-, -, -, hn, hf⟩ := (reach_wf h).arena
  split
  · rename_i hc; exact List.count_eq_one_of_mem hn ((hf i).2 hc)
  · rename_i hc; rw [List.count_eq_zero]; exact fun hx => hc ((hf i).1 hx)

/-- a deleted id is handed out again -/
example : ((exDb0.removeClause 1).bind fun d => d.newClause (fun _ => 0) [exL 7 true, exL 8 true] false).map (·.2) =
    some (.clause 1) := by decide +kernel

/-! ## C21 -/

/-- **C21**: looking up two literals succeeds exactly for live binary clauses over them, in either order, and tells their id. -/
theorem C21_lookup {db : Cdb} (h : DbReach db) (a b : Lit) (i : Nat) :
    db.blSearch a b = some i ↔ (db.clause i).lits = [a, b] ∨ (db.clause i).lits = [b, a] := by
  unfold blSearch
  rw [(reach_wf h).hIff]
  constructor
  · rintro ⟨x, y, e1, e2⟩
    rcases bkey_eq.1 e2 with ⟨rfl, rfl⟩ | ⟨rfl, rfl⟩
    · exact .inl e1
    · exact .inr e1
  · rintro (e | e)
    · exact ⟨_, _, e, rfl⟩
    · exact ⟨_, _, e, bkey_comm _ _⟩

/-- **C21**: there are never two live binary clauses with the same literals. -/
theorem C21_unique {db : Cdb} (h : DbReach db) (a b : Lit) (i j : Nat)
    (hi : (db.clause i).lits = [a, b] ∨ (db.clause i).lits = [b, a])
    (hj : (db.clause j).lits = [a, b] ∨ (db.clause j).lits = [b, a]) : i = j := by
  have e1 := (C21_lookup h a b i).2 hi
  have e2 := (C21_lookup h a b j).2 hj
  rw [e1] at e2; simpa using e2

/-- **C21**: adding a binary clause that is present returns the present one and changes nothing. -/
theorem C21_add_present {db : Cdb} (h : DbReach db) (level : Nat → Nat) (learnt : Bool) (a b : Lit) (i : Nat)
    (hi : (db.clause i).lits = [a, b] ∨ (db.clause i).lits = [b, a]) :
    db.newClause level [a, b] learnt = some (db, .registered i) := by
  have e1 := (C21_lookup h a b i).2 hi
  simp [newClause, e1]

example : exDb0.newClause (fun _ => 0) [exL 2 true, exL 1 false] true = some (exDb0, .registered 2) :=
  C21_add_present exDb0_reach _ _ _ _ 2 (.inr (by decide +kernel))

/-! ## C22 -/

/-- The number of clauses `1 ≤ i < len` with a property. -/
def countClauses (db : Cdb) (q : Cl → Prop) [DecidablePred q] : Nat :=
  (List.range db.len).countP (fun i => decide (q (db.clause i)))

/-- **C22** (numbers of live clauses, of live binary clauses and of live clauses flagged LEARNT) for every history of
database operations. What is missing for the full property is the flag change made by `try_subsume`
(src/processor/subsume.rs:35-37), see `C22_violated`. -/
theorem C22_statistics_partial {db : Cdb} (h : DbReach db) :
    db.numClause = countClauses db (fun c => c.lits ≠ []) ∧
    db.numBiClause = countClauses db (fun c => c.lits.length = 2) ∧
    db.numLearnt = countClauses db (fun c => c.lits ≠ [] ∧ c.learnt = true) := by
  obtain ⟨a, b, l⟩ := reach_stats h
  refine ⟨?_, ?_, ?_⟩
  · rw [a, cnt, cntN_range]; unfold countClauses; congr 2; funext i; rw [Bool.eq_iff_iff]; simp [qA]
  · rw [b, cnt, cntN_range]; unfold countClauses; congr 2
  · rw [l, cnt, cntN_range, Int.add_zero]; unfold countClauses; congr 2; funext i; rw [Bool.eq_iff_iff]; simp [qL]

/-- src/processor/subsume.rs:35-37 (`try_subsume`): `cdb[cid].turn_off(FlagClause::LEARNT)` on the subsuming clause, with
no change of `num_learnt`. -/
def turnOffLearnt (db : Cdb) (cid : Nat) : Cdb := db.setC cid { db.clause cid with learnt := false }

/-- **C22 is violated**: after `try_subsume` promotes a learnt clause to a problem clause, the reported number of learnt
clauses exceeds the number of learnt clauses. -/
theorem C22_violated : ∃ db cid, DbReach db ∧ (db.clause cid).learnt = true ∧
    (turnOffLearnt db cid).numLearnt ≠ countClauses (turnOffLearnt db cid) (fun c => c.lits ≠ [] ∧ c.learnt = true) :=
  ⟨exDb0, 3, exDb0_reach, by decide +kernel, by decide +kernel⟩

example : exDb0.numClause = 3 ∧ exDb0.numBiClause = 1 ∧ exDb0.numLearnt = 1 := by decide +kernel

/-! ## C19 -/

/-- **C19**: `reduce` deletes only clauses flagged LEARNT (of rank above 4), changes no literal of a remaining clause, and
never panics, whatever the activities (`victims`) suggest. -/
theorem C19_reduce {db : Cdb} (h : DbReach db) (level : Nat → Nat) (victims : List Nat) :
    ∃ db', db.reduce level victims = some db' ∧ ∀ i,
      ((db'.clause i).lits = (db.clause i).lits) ∨
      ((db'.clause i).lits = [] ∧ (db.clause i).learnt = true ∧ 4 < lbdOf level (db.clause i).lits) := by
  obtain ⟨d, e, -, -, hcl⟩ := reduce_spec (reach_wf h) level victims
  refine ⟨d, e, fun i => ?_⟩
  rcases hcl i with ⟨h1, -⟩ | ⟨-, h2, h3, h4⟩
  · exact .inl h1
  · exact .inr ⟨h4, h2, h3⟩

/-- `reduce` is called at the root level, where every assigned variable has level 0 and no clause is the reason of an
assignment above the root. A binary clause never counts as reducible. -/
theorem C19_binary_kept {db db' : Cdb} (h : DbReach db) (level : Nat → Nat) (victims : List Nat) (i : Nat)
    (hb : (db.clause i).lits.length = 2) (e : db.reduce level victims = some db') : (db'.clause i).lits = (db.clause i).lits := by
  obtain ⟨d, e', hcl⟩ := C19_reduce h level victims
  rw [e] at e'; simp at e'; subst e'
  rcases hcl i with h1 | ⟨-, -, h3⟩
  · exact h1
  · exfalso
    unfold lbdOf at h3
    rw [if_neg (by omega)] at h3
    have h4 := (List.dedup_sublist (((db.clause i).lits.map fun l => level l.var).filter (· ≠ 0))).length_le
    have h5 := List.length_filter_le (· ≠ 0) ((db.clause i).lits.map fun l => level l.var)
    simp only [List.length_map] at h5
    omega

/-- a history in which a clause of rank 5 is deleted -/
def exDb1 : Cdb := newD exDb0 (fun v => v) [exL 1 true, exL 2 false, exL 4 true, exL 5 true, exL 7 true] true

theorem exDb1_reach : DbReach exDb1 := newD_reach exDb0_reach _ _ _ (by decide)

example : ((exDb1.reduce (fun v => v) [4, 3, 1]).map fun d => (List.range 5).map fun i => (d.clause i).lits.length) =
    some [0, 3, 2, 4, 0] := by decide +kernel

/-! ## C33 -/

/-- A literal is true under a partial assignment. -/
def trueIn (m : Nat → Option Bool) (l : Lit) : Prop := m l.var = some l.pos

theorem litVal_trueIn (m : Nat → Option Bool) (l : Lit) : litVal m l = some true ↔ trueIn m l := by
  unfold litVal trueIn; cases m l.var <;> simp

theorem evalClause_true (m : Nat → Option Bool) (c : Cls) : evalClause m c = some true ↔ ∃ l ∈ c, trueIn m l := by
  unfold evalClause
  have : (c.any fun l => litVal m l == some true) = true ↔ ∃ l ∈ c, trueIn m l := by simp [litVal_trueIn]
  by_cases h : (c.any fun l => litVal m l == some true) = true
  · rw [if_pos h]; simp [this.1 h]
  · rw [if_neg h]
    constructor
    · intro h'; split at h' <;> simp at h'
    · intro h'; exact absurd (this.2 h') h

theorem validate_strict {db : Cdb} (w : db.WF) (m : Nat → Option Bool) :
    (db.validate m true = none ↔ ∀ i, (db.clause i).lits ≠ [] → (db.clause i).learnt = false → ∃ l ∈ (db.clause i).lits, trueIn m l) ∧
    (∀ i, db.validate m true = some i → (db.clause i).lits ≠ [] ∧ (db.clause i).learnt = false ∧ ∀ l ∈ (db.clause i).lits, ¬ trueIn m l) := by
  have key : ∀ i, (decide (0 < i) && !(db.clause i).dead && !(true && (db.clause i).learnt) &&
      match evalClause m (db.clause i).lits with | some false => true | none => true | some true => false) = true ↔
      (0 < i ∧ (db.clause i).lits ≠ [] ∧ (db.clause i).learnt = false ∧ ∀ l ∈ (db.clause i).lits, ¬ trueIn m l) := by
    intro i
    have e := evalClause_true m (db.clause i).lits
    simp only [Bool.and_eq_true, decide_eq_true_eq, Bool.not_eq_true', Bool.true_and, Cl.dead, List.isEmpty_eq_false_iff]
    have : (match evalClause m (db.clause i).lits with | some false => true | none => true | some true => false) = true ↔
        ¬ ∃ l ∈ (db.clause i).lits, trueIn m l := by
      rw [← e]; split <;> simp_all
    rw [this]
    constructor
    · rintro ⟨⟨⟨a, b⟩, c⟩, d⟩; exact ⟨a, b, c, fun l hl ht => d ⟨l, hl, ht⟩⟩
    · rintro ⟨a, b, c, d⟩; exact ⟨⟨⟨a, b⟩, c⟩, fun ⟨l, hl, ht⟩ => d l hl ht⟩
  have hpos : ∀ i, (db.clause i).lits ≠ [] → 0 < i ∧ i < db.len := by
    intro i hl
    refine ⟨?_, w.lt_len hl⟩
    rcases Nat.eq_zero_or_pos i with e | e
    · subst e; exact absurd w.arena.zero hl
    · exact e
  constructor
  · unfold validate
    rw [List.find?_eq_none]
    simp only [List.mem_range]
    constructor
    · intro H i hl hle
      by_contra hno
      refine H i (hpos i hl).2 ((key i).2 ⟨(hpos i hl).1, hl, hle, fun l hl' ht => hno ⟨l, hl', ht⟩⟩)
    · intro H i hi hc
      obtain ⟨-, hl, hle, hf⟩ := (key i).1 hc
      obtain ⟨l, hl', ht⟩ := H i hl hle
      exact hf l hl' ht
  · intro i hi
    have hh := List.find?_some hi
    exact ((key i).1 hh).2

/-- **C33**: `validate()` (strict, src/solver/validate.rs:66-70) returns nothing exactly when the loaded assignment makes a
literal true in every stored problem clause; otherwise it returns a stored problem clause without a true literal. -/
theorem C33_validate {db : Cdb} (h : DbReach db) (m : Nat → Option Bool) :
    (db.validate m true = none ↔ ∀ i, (db.clause i).lits ≠ [] → (db.clause i).learnt = false → ∃ l ∈ (db.clause i).lits, trueIn m l) ∧
    (∀ i, db.validate m true = some i → (db.clause i).lits ≠ [] ∧ (db.clause i).learnt = false ∧ ∀ l ∈ (db.clause i).lits, ¬ trueIn m l) :=
  validate_strict (reach_wf h) m

theorem validate_loose {db : Cdb} (w : db.WF) (m : Nat → Option Bool) :
    db.validate m false = none ↔ ∀ i, (db.clause i).lits ≠ [] → ∃ l ∈ (db.clause i).lits, m l.var ≠ some (!l.pos) := by
  have e2 : ∀ c : Cls, evalClause m c = some false ↔ ∀ l ∈ c, m l.var = some (!l.pos) := by
    intro c
    have hv : ∀ l : Lit, litVal m l = some false ↔ m l.var = some (!l.pos) := by
      intro l; unfold litVal; cases hm : m l.var with
      | none => simp
      | some b => cases b <;> cases l.pos <;> simp
    have hv' : ∀ l : Lit, (litVal m l = some false) ↔ ¬ (litVal m l = some true) ∧ ¬ (litVal m l = none) := by
      intro l; cases litVal m l with
      | none => simp
      | some b => cases b <;> simp
    unfold evalClause
    simp only [← hv, hv']
    split
    · rename_i h1; simp at h1; obtain ⟨l, hl, ht⟩ := h1
      simp only [Option.some.injEq, Bool.true_eq_false, false_iff]
      intro H; exact (H l hl).1 ht
    · rename_i h1
      split
      · rename_i h2; simp at h2; obtain ⟨l, hl, ht⟩ := h2
        simp only [reduceCtorEq, false_iff]; intro H; exact (H l hl).2 ht
      · rename_i h2; simp at h1 h2; simp only [true_iff]; intro l hl; exact ⟨h1 l hl, h2 l hl⟩
  unfold validate
  rw [List.find?_eq_none]
  simp only [List.mem_range]
  have key : ∀ i, (decide (0 < i) && !(db.clause i).dead && !(false && (db.clause i).learnt) &&
      match evalClause m (db.clause i).lits with | some false => true | none => false | some true => false) = true ↔
      (0 < i ∧ (db.clause i).lits ≠ [] ∧ ∀ l ∈ (db.clause i).lits, m l.var = some (!l.pos)) := by
    intro i
    rw [← e2]
    simp only [Bool.and_eq_true, decide_eq_true_eq, Bool.not_eq_true', Bool.false_and, Cl.dead, List.isEmpty_eq_false_iff, and_true]
    rw [and_assoc]
    refine and_congr Iff.rfl (and_congr Iff.rfl ?_)
    split <;> simp_all
  constructor
  · intro H i hl
    by_contra hno
    have hpos : 0 < i := by
      rcases Nat.eq_zero_or_pos i with e | e
      · subst e; exact absurd w.arena.zero hl
      · exact e
    refine H i (w.lt_len hl) ((key i).2 ⟨hpos, hl, fun l hl' => ?_⟩)
    by_contra hne; exact hno ⟨l, hl', hne⟩
  · intro H i hi hc
    obtain ⟨-, hl, hf⟩ := (key i).1 hc
    obtain ⟨l, hl', ht⟩ := H i hl
    exact ht (hf l hl')

/-- The non-strict variant, used by `solve` on its own model (src/solver/search.rs:183): nothing is returned exactly when no
live clause, learnt or not, has all its literals false. -/
theorem C33_validate_loose {db : Cdb} (h : DbReach db) (m : Nat → Option Bool) :
    db.validate m false = none ↔ ∀ i, (db.clause i).lits ≠ [] → ∃ l ∈ (db.clause i).lits, m l.var ≠ some (!l.pos) :=
  validate_loose (reach_wf h) m

example : exDb0.validate (fun v => if v = 1 then some true else if v = 2 then some true else none) true = none ∧
    exDb0.validate (fun v => if v = 1 then some true else none) true = some 2 := by decide +kernel

end Splr
