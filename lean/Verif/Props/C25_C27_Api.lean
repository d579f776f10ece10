import Verif.Props.C03_C11_Search
/-!
# C25, C26, C27: `add_clause`, `add_assignment`, `add_var`

`Built F x` (Model/Reach.lean): `x` is a solver that was given the clauses `F` by any sequence of calls.
-/
namespace Splr
open Stk

theorem Built.models {F : Form} {x : Sol} (h : Built F x) (b : Asg) : Form.sat b F ↔ IsModel x.db x.s b := by
  rw [isModel_iff]; exact h.bok.1.models b

theorem sat_append_one {F : Form} {c : Cls} {b : Asg} : Form.sat b (F ++ [c]) ↔ Form.sat b F ∧ Cls.sat b c := by
  simp only [Form.sat, List.mem_append, List.mem_singleton]
  exact ⟨fun h => ⟨fun d hd => h d (.inl hd), h c (.inr rfl)⟩, fun h d hd => hd.elim (h.1 d) fun e => e ▸ h.2⟩

/-- A solver with a unit clause, a long clause and an assignment, for the examples. -/
def exApi : Sol := exSolver 5 [[1], [2, 3, -4], [-5]]

theorem exApi_built : Built ([[1], [2, 3, -4], [-5]].map clsOf) exApi := exBuilt (by decide +kernel)

/-! ## C25 -/

/-- **C25.** A successful `add_clause` conjoins the given clause to the represented formula, whatever duplicates, complementary
literals and decided literals it contains. -/
theorem C25_add_clause {F : Form} {x : Sol} (h : Built F x) {v : List Int} {y : Sol} (e : x.addClause v = some (y, none)) (b : Asg) :
    IsModel y.db y.s b ↔ IsModel x.db x.s b ∧ Cls.sat b (clsOf v) := by
  rw [← (Built.addClause h e).models b, ← h.models b, sat_append_one]

/-- duplicates and false literals; a tautology; a true literal; a clause that becomes a unit; a registered binary clause -/
example : ∀ v ∈ [[4, 2, 4, 5, -1, 3], [2, -3, -2], [3, 1, 2], [-1, 4, 5], [2, 4], [4, 2]],
    ∃ y, exApi.addClause v = some (y, none) ∧ ∀ b, IsModel y.db y.s b ↔ IsModel exApi.db exApi.s b ∧ Cls.sat b (clsOf v) := by
  intro v hv
  have h : ∀ v ∈ [[4, 2, 4, 5, -1, 3], [2, -3, -2], [3, 1, 2], [-1, 4, 5], [2, 4], [4, 2]],
      ((exApi.addClause v).map Prod.snd) = some none := by decide +kernel
  have h1 := h v hv
  cases hy : exApi.addClause v with
  | none => rw [hy] at h1; simp at h1
  | some r =>
    obtain ⟨y, e⟩ := r
    rw [hy] at h1; simp at h1; subst h1
    exact ⟨y, rfl, C25_add_clause exApi_built hy⟩

/-- **C25**, for `add_assignment`. -/
theorem C25_add_assignment {F : Form} {x : Sol} (h : Built F x) {i : Int} {y : Sol} (e : x.addAssignment i = (y, none)) (b : Asg) :
    IsModel y.db y.s b ↔ IsModel x.db x.s b ∧ (Lit.ofInt i).sat b := by
  rw [← (Built.addAssignment h e).models b, ← h.models b, sat_append_one]
  simp [clsOf, Cls.sat]

example : (exApi.addAssignment 3).2 = none ∧ (exApi.addAssignment (-2)).2 = none ∧ (exApi.addAssignment 1).2 = none := by decide +kernel

/-- **C25**, for the clause of a line of a file. -/
theorem C25_line {F : Form} {x : Sol} (h : Built F x) {c : List Int} (hc : ∀ i ∈ c, i ≠ 0 ∧ i.natAbs ≤ x.s.numVars) {y : Sol} {r : RefClause}
    (e : x.addUnchecked (clsOf c) = some (y, r)) (hr : r ≠ .emptyClause) (b : Asg) :
    IsModel y.db y.s b ↔ IsModel x.db x.s b ∧ Cls.sat b (clsOf c) := by
  rw [← (Built.line h hc e hr).models b, ← h.models b, sat_append_one]

example : ((exApi.addUnchecked (clsOf [4, 2, 4, 5, -1, 3])).map fun r => decide (r.2 ≠ .emptyClause)) = some true := by decide +kernel

/-- A rejected `add_clause` does not change the meaning of the solver. -/
theorem C25_rejected {F : Form} {x : Sol} (h : Built F x) {v : List Int} {y : Sol} {err : ApiErr} (e : x.addClause v = some (y, some err)) (b : Asg) :
    IsModel y.db y.s b ↔ IsModel x.db x.s b := by
  rw [← (Built.rejected h e).models b, ← h.models b]

example : ((exApi.addClause [-1, 5, 5]).map Prod.snd) = some (some .emptyClause) := by decide +kernel

/-! ## C26 -/

theorem normLits_allFalse {val : Lit → Option Bool} : ∀ {ls : Cls} {last : Option Lit}, (∀ l ∈ ls, val l = some false) →
    (∀ l ∈ ls, last ≠ some l.neg) → normLits val ls last = some []
  | [], _, _, _ => rfl
  | l :: ls, last, h, hl => by
    have h1 := h l (by simp)
    unfold normLits
    rw [if_neg (by simp [h1, hl l (by simp)]), if_neg (by simp [h1])]
    exact normLits_allFalse (fun m hm => h m (by simp [hm])) fun m hm => hl m (by simp [hm])

theorem addUnchecked_empty {F : Form} {x : Sol} (h : BOK F x) {c : Cls} (hv : ∀ l ∈ c, 1 ≤ l.var ∧ l.var ≤ x.s.numVars) {y : Sol} {rf : RefClause}
    (e : x.addUnchecked c = some (y, rf)) : rf = .emptyClause ↔ ∀ l ∈ c, x.s.val l = some false := by
  constructor
  · intro hr; subst hr
    unfold Sol.addUnchecked at e
    split at e
    · rename_i hc; subst hc; simp
    · cases hn : normLits x.s.val (sortLits c) none with
      | none => rw [hn] at e; simp at e
      | some w =>
        rw [hn] at e
        obtain ⟨h1, h2, h3, -⟩ := normLits_some (sortLits_sorted c) (by simp) hn
        match w, e, h1, h2 with
        | [], e, h1, h2 =>
          intro l hl
          rcases h2 l (sortLits_mem.2 hl) with h | h | h
          · simp at h
          · exact h
          · simp at h
        | [l], e, h1, h2 =>
          have hlc := sortLits_mem.1 (h1 l (by simp)).1
          obtain ⟨s', e', -⟩ := h.unit (c := c) (l := l) hlc (fun m hm => by
            rcases h2 m (sortLits_mem.2 hm) with h0 | h0 | h0
            · exact .inl (by simpa using h0)
            · have := val_false.1 h0
              exact .inr ⟨this, h.rinv.inv.level_root h.lim (tr_assigned this)⟩
            · simp at h0) (val_none.1 (h1 l (by simp)).2) (hv l hlc)
          simp only [e'] at e
          simp at e
        | l0 :: l1 :: tl, e, h1, h2 =>
          obtain ⟨z, rf', e', -, -, h3', h4⟩ := addUnchecked_spec h hv
          have hz : x.addUnchecked c = some (y, .emptyClause) := by
            unfold Sol.addUnchecked; rw [if_neg (by assumption), hn]; exact e
          rw [hz] at e'
          simp at e'
          obtain ⟨-, rfl⟩ := e'
          obtain ⟨⟨db', rf2⟩, e2⟩ := Cdb.newClause_isSome (db := x.db) (level := x.s.level) (vec := l0 :: l1 :: tl) (learnt := false) (by simp)
          simp only [e2] at e
          have hnd : ((l0 :: l1 :: tl).map Lit.var).Nodup := by
            rw [List.nodup_iff_pairwise_ne, List.pairwise_map]
            exact h3.imp fun h => Nat.ne_of_lt h
          obtain ⟨-, hne⟩ := h.clause (c := c) (v := l0 :: l1 :: tl) (fun m hm => sortLits_mem.1 (h1 m hm).1) (fun m hm => by
            rcases h2 m (sortLits_mem.2 hm) with h0 | h0 | h0
            · exact .inl h0
            · have := val_false.1 h0
              exact .inr ⟨this, h.rinv.inv.level_root h.lim (tr_assigned this)⟩
            · simp at h0) hnd hv e2
          simp at e
          exact absurd e.2 hne
  · intro hall
    unfold Sol.addUnchecked at e
    split at e
    · simp at e; exact e.2.symm
    · rw [normLits_allFalse (fun l hl => hall l (sortLits_mem.1 hl)) (by simp)] at e
      simp at e; exact e.2.symm

theorem badLit_iff {x : Sol} {i : Int} : x.badLit i = true ↔ i = 0 ∨ x.s.numVars < i.natAbs := by simp [Sol.badLit]

/-- **C26.** `add_clause` never panics; it reports InvalidLiteral exactly if a literal is 0 or out of range, and otherwise
EmptyClause exactly if every literal is false; no other error; and with an error nothing changes. -/
theorem C26_add_clause_errors {F : Form} {x : Sol} (h : Built F x) (v : List Int) :
    ∃ y err, x.addClause v = some (y, err) ∧
      (err = some .invalidLiteral ↔ ∃ i ∈ v, i = 0 ∨ x.s.numVars < i.natAbs) ∧
      (err = some .emptyClause ↔ (∀ i ∈ v, i ≠ 0 ∧ i.natAbs ≤ x.s.numVars) ∧ ∀ l ∈ clsOf v, Fact x.s l.neg) ∧
      (err = none ∨ err = some .invalidLiteral ∨ err = some .emptyClause) ∧ (err ≠ none → y = x) := by
  obtain ⟨y, err, e, -, -, h1, -, h3, h4⟩ := addClause_spec h.bok.1 v
  refine ⟨y, err, e, ?_, ?_, ?_, h3⟩
  · rw [h1, List.any_eq_true]; simp only [badLit_iff]
  · have hb : v.any x.badLit = false ↔ ∀ i ∈ v, i ≠ 0 ∧ i.natAbs ≤ x.s.numVars := by
      rw [List.any_eq_false]
      exact ⟨fun h i hi => badLit_false (by simpa using h i hi), fun h i hi => by simp [Sol.badLit, (h i hi).1, (h i hi).2]⟩
    rw [← hb]
    have hf : (∀ l ∈ clsOf v, Fact x.s l.neg) ↔ ∀ l ∈ clsOf v, x.s.val l = some false := by
      refine forall₂_congr fun l _ => ⟨fun hf => val_false.2 hf.1, fun hv => ?_⟩
      have := val_false.1 hv
      exact ⟨this, h.bok.1.rinv.inv.level_root h.bok.1.lim (tr_assigned this)⟩
    rw [hf]
    constructor
    · intro he
      have hbf : v.any x.badLit = false := by
        by_contra hc
        have := h1.2 (by simpa using hc)
        rw [he] at this; simp at this
      refine ⟨hbf, ?_⟩
      unfold Sol.addClause at e
      rw [if_neg (by simp [hbf])] at e
      split at e
      · rename_i hv; subst hv; simp [clsOf]
      · split at e
        · simp at e
        · rename_i e'
          exact (addUnchecked_empty h.bok.1 (ofInt_range hbf) e').1 rfl
        · simp at e; rw [he] at e; simp at e
    · rintro ⟨hbf, hall⟩
      unfold Sol.addClause at e
      rw [if_neg (by simp [hbf])] at e
      split at e
      · simp at e; exact e.2.symm
      · split at e
        · simp at e
        · simp at e; exact e.2.symm
        · rename_i e'
          have := (addUnchecked_empty h.bok.1 (ofInt_range hbf) e').2 hall
          exact absurd this (by assumption)
  · rcases h4 with h | h | h
    · exact .inl h
    · exact .inr (.inl h)
    · exact .inr (.inr h.1)

/-- all three outcomes -/
example : (exApi.addClause [2, 6]).map Prod.snd = some (some .invalidLiteral) ∧ (exApi.addClause [0, 1]).map Prod.snd = some (some .invalidLiteral) ∧
    (exApi.addClause [-1, 5]).map Prod.snd = some (some .emptyClause) ∧ (exApi.addClause []).map Prod.snd = some (some .emptyClause) ∧
    (exApi.addClause [-1, 2, 5]).map Prod.snd = some none := by decide +kernel

/-- **C26**, for `add_assignment`: RootLevelConflict exactly if the literal is false already. A rejected call changes neither
clauses nor assignment. -/
theorem C26_add_assignment_errors {F : Form} {x : Sol} (h : Built F x) (i : Int) :
    let r := x.addAssignment i
    (r.2 = some .invalidLiteral ↔ i = 0 ∨ x.s.numVars < i.natAbs) ∧
      (r.2 = some .rootConflict ↔ (i ≠ 0 ∧ i.natAbs ≤ x.s.numVars) ∧ Fact x.s (Lit.ofInt i).neg) ∧
      (r.2 = none ∨ r.2 = some .invalidLiteral ∨ r.2 = some .rootConflict) ∧
      (r.2 = some .invalidLiteral → r.1 = x) ∧ (r.2 ≠ none → r.1.s = x.s ∧ ∀ c, Held r.1.db c ↔ Held x.db c) := by
  intro r
  have hr : r = x.addAssignment i := rfl
  obtain ⟨-, -, h1, h2, -, h4⟩ := addAssignment_spec h.bok.1 i
  rw [← hr] at h1 h2 h4
  refine ⟨by rw [h1, badLit_iff], ?_, ?_, h2, ?_⟩
  · have hb : x.badLit i = false ↔ i ≠ 0 ∧ i.natAbs ≤ x.s.numVars := by simp [Sol.badLit]
    rw [← hb]
    have hf : Fact x.s (Lit.ofInt i).neg ↔ x.s.val (Lit.ofInt i) = some false := by
      refine ⟨fun hf => val_false.2 hf.1, fun hv => ?_⟩
      have := val_false.1 hv
      exact ⟨this, h.bok.1.rinv.inv.level_root h.bok.1.lim (tr_assigned this)⟩
    rw [hf]
    clear_value r
    subst hr
    unfold Sol.addAssignment
    split
    · rename_i hbad; simp [hbad]
    · rename_i hbad
      have hbad' : x.badLit i = false := by simpa using hbad
      simp only [hbad', true_and]
      split
      · rename_i hn
        have hrg := ofInt_range (x := x) (v := [i]) (by simp [hbad']) (Lit.ofInt i) (by simp [clsOf])
        obtain ⟨s', e, -⟩ := h.bok.1.unit (c := [Lit.ofInt i]) (l := Lit.ofInt i) (by simp) (by simp) (val_none.1 hn) hrg
        simp [e, hn]
      · rename_i hn; simp [hn]
      · rename_i hn; simp [hn]
  · rcases h4 with h | h | h
    · exact .inl h
    · exact .inr (.inl h)
    · exact .inr (.inr h.1)
  · clear_value r
    subst hr
    unfold Sol.addAssignment
    split
    · intro _; exact ⟨rfl, fun _ => .rfl⟩
    · rename_i hbad
      have hbad' : x.badLit i = false := by simpa using hbad
      simp only []
      split
      · rename_i hn
        have hrg := ofInt_range (x := x) (v := [i]) (by simp [hbad']) (Lit.ofInt i) (by simp [clsOf])
        obtain ⟨s', e, -⟩ := h.bok.1.unit (c := [Lit.ofInt i]) (l := Lit.ofInt i) (by simp) (by simp) (val_none.1 hn) hrg
        simp [e]
      · simp
      · intro _; exact ⟨rfl, fun _ => .rfl⟩

example : (exApi.addAssignment 6).2 = some .invalidLiteral ∧ (exApi.addAssignment 0).2 = some .invalidLiteral ∧
    (exApi.addAssignment (-1)).2 = some .rootConflict ∧ (exApi.addAssignment 2).2 = none := by decide +kernel

/-- If a call is rejected although its literals are in range, the clause contradicts what the solver was given. -/
theorem C26_rejection_is_right {F : Form} {x : Sol} (h : Built F x) {v : List Int} {y : Sol} (e : x.addClause v = some (y, some .emptyClause)) :
    ¬ (F ++ [clsOf v]).Satisfiable := by
  obtain ⟨y', err, e', -, h1, -⟩ := C26_add_clause_errors h v
  rw [e] at e'; simp at e'; obtain ⟨rfl, rfl⟩ := e'
  obtain ⟨-, hf⟩ := h1.1 rfl
  rintro ⟨b, hb⟩
  obtain ⟨hF, l, hl, hs⟩ := sat_append_one.1 hb
  have := ((h.models b).1 hF).2 _ (hf l hl)
  simp at this; exact this hs

example : ((exApi.addClause [-1, 5, 5]).map Prod.snd) = some (some .emptyClause) := by decide +kernel

/-! ## C27 -/

/-- **C27** (the part that holds). `add_var` adds exactly one variable: its number is returned, it is unassigned, not
eliminated, occurs in no clause; clauses, assignments and the models stay; clauses and assignments with it are
accepted; and if a later call of `solve` finds a model, the variable is in it. Missing: that a later call of `solve` finds a
model if there is one; see `C27_violated`. -/
theorem C27_add_var_partial {F : Form} {x : Sol} (h : Built F x) :
    let y := x.addVar.1
    let n := x.addVar.2
    n = x.s.numVars + 1 ∧ y.s.numVars = n ∧ y.s.assign n = none ∧ y.s.elim n = false ∧
      (∀ c, Held y.db c → ∀ l ∈ c, l.var ≠ n) ∧ y.db = x.db ∧ (∀ l, Fact y.s l ↔ Fact x.s l) ∧
      (∀ b, IsModel y.db y.s b ↔ IsModel x.db x.s b) ∧
      (∀ v : List Int, (∃ i ∈ v, i.natAbs = n) → (∀ i ∈ v, i ≠ 0 ∧ i.natAbs ≤ n) → ∃ z, y.addClause v = some (z, none)) ∧
      (∀ i : Int, i.natAbs = n → (y.addAssignment i).2 = none) ∧
      (∀ cfg p os low vals, (solve cfg p os low y).verdict = .sat vals → vals.length = n ∧ ((n : Int) ∈ vals ∨ -(n : Int) ∈ vals)) := by
  intro y n
  have hb : Built F y := .addVar h
  have hn : n = x.s.numVars + 1 := rfl
  have hnv : y.s.numVars = n := rfl
  have ho := h.bok.1
  have hass : y.s.assign n = none := by
    show x.s.assign n = none
    by_contra hc
    have := (ho.dom.as n hc).2.1
    omega
  have hval : ∀ i : Int, i.natAbs = n → ¬ Fact y.s (Lit.ofInt i).neg := by
    rintro i hi ⟨h1, -⟩
    have : y.s.assign (Lit.ofInt i).var = some (Lit.ofInt i).neg.pos := h1
    have hvar : (Lit.ofInt i).var = n := hi
    rw [hvar, hass] at this; simp at this
  refine ⟨hn, hnv, hass, ?_, ?_, rfl, fun _ => .rfl, fun _ => .rfl, ?_, ?_, ?_⟩
  · exact ho.elim n
  · rintro c ⟨-, cid, rfl⟩ l hl he
    have h1 : l.var ≤ x.s.numVars := (ho.dom.cl cid l hl).2.1
    omega
  · intro v ⟨i, hi, he⟩ hrg
    obtain ⟨z, err, e, h1, h2, h3, -⟩ := C26_add_clause_errors hb v
    rcases h3 with rfl | rfl | rfl
    · exact ⟨z, e⟩
    · obtain ⟨j, hj, hj2⟩ := h1.1 rfl
      have := hrg j hj
      omega
    · obtain ⟨-, hf⟩ := h2.1 rfl
      exact absurd (hf (Lit.ofInt i) (List.mem_map.2 ⟨i, hi, rfl⟩)) (hval i he)
  · intro i hi
    obtain ⟨h1, h2, h3, -⟩ := C26_add_assignment_errors hb i
    rcases h3 with h3 | h3 | h3
    · exact h3
    · have := h1.1 h3; omega
    · exact absurd (h2.1 h3).2 (hval i hi)
  · intro cfg p os low vals e
    have hc := (hb.sat e).1
    have hl : vals.length = n := hc.1
    have hm := hc.2 (n - 1) (by omega)
    have hx : ((n - 1 + 1 : Nat) : Int) = n := by omega
    rw [hx] at hm
    refine ⟨hl, hm.imp (fun h => ?_) fun h => ?_⟩ <;> (rw [← h]; exact List.getElem_mem _)

/-- The new variable 6 gets a value by a unit clause; it is in the model found. -/
example : let y := exApi.addVar.1
    (y.addClause [-6]).map Prod.snd = some none ∧
      ((y.addClause [-6]).map fun z => (solve {} plainPre (List.replicate 9 plainOrc) noLow z.1).verdict) = some (.sat [1, 2, 3, -4, -5, -6]) := by
  decide +kernel

/-- **C27 is violated**: if the new variable has no value when `solve` is called, `solve` panics, although the formula
(here: no clauses at all) is satisfiable. `add_var` does not change `state.cnf`, from which the eliminator takes the size of
its queue. -/
theorem C27_violated : ∃ (F : Form) (x : Sol), Built F x ∧ F.Satisfiable ∧ ∀ (p : Pre) (os : List Orc) (low : Nat → Bool), p.oom = false → p.oom1 = false →
    p.targets = [] → (match solve {} p os low x with | .panic => True | _ => False) := by
  refine ⟨[], (Sol.new 0).addVar.1, .addVar (.new 0), ⟨fun _ => true, by simp [Form.sat]⟩, fun p os low h1 h2 h3 => ?_⟩
  have : preprocess {} p (Sol.new 0).addVar.1 = .panic := by
    unfold preprocess
    rw [h1, h2, h3]
    rfl
  unfold solve
  rw [this]
  trivial

end Splr
