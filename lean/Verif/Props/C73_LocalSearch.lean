import Verif.Lemmas.Sls
import Verif.Props.C66_Bounds
import Verif.Props.C68_Phases
import Mathlib.Algebra.Order.Ring.Rat
import Mathlib.Algebra.Field.Rat
/-!
# C73: the local search

With the feature `stochastic_local_search`, a local search starts from the best phases at some stage changes; what it finds is
meant to be the next phases.
-/
namespace Splr
open Stk

section
variable {K : Type} [Field K] [LinearOrder K] [IsStrictOrderedRing K]

/-- **C73**, what is counted: the clauses that the solver holds. -/
theorem C73_live_clauses {cfg : Cfg} {F : Form} {db : Cdb} {s : Stk} (h : Visited cfg F db s) (c : Cls) : c ∈ db.liveCls ↔ Held db c := by
  have hb := C66_in_bounds h
  unfold Cdb.liveCls Held
  simp only [List.mem_filter, List.mem_map, List.mem_range, ne_eq, decide_not, Bool.not_eq_true', decide_eq_false_iff_not]
  constructor
  · rintro ⟨⟨i, -, rfl⟩, hne⟩
    exact ⟨hne, i, rfl⟩
  · rintro ⟨hne, i, rfl⟩
    obtain ⟨h1, h2, -⟩ := hb.clause i hne
    exact ⟨⟨i, ⟨i - 1, by omega, by omega⟩, rfl⟩, hne⟩

/-- **C73**: for any clauses (of a database) and any start that has a value for their variables, the search does not panic. The two
numbers it returns are the numbers of clauses that the start and the result falsify. The result is reached by flipping variables
of clauses that are false at that moment; there are as many flips as allowed, unless no false clause is left. -/
theorem C73_local_search {w : Nat → Nat → K} (hw : ∀ u n, 0 < w u n) {db : Cdb} {a : Nat → Option Bool} (ha : Covers a db.liveCls) {limit : Nat}
    (hl : 0 < limit) : ∃ n m b k, db.sls w a limit = some ((n, m), b) ∧ n = numFalsified a db.liveCls ∧ m = numFalsified b db.liveCls ∧
      Walk db.liveCls k a b ∧ k < limit ∧ (m ≠ 0 → k + 1 = limit) := by
  have hne : ∀ c ∈ db.liveCls, c ≠ [] := by
    intro c hc; unfold Cdb.liveCls at hc; simpa using (List.mem_filter.1 hc).2
  obtain ⟨r, b, k, e, h1, h2, h3, h4⟩ := slsLoop_spec hw hne limit limit 1 721109 db.numClause.toNat (0, 0) a ha rfl hl (by omega)
  rw [if_pos rfl] at e
  exact ⟨_, r, b, k, e, rfl, h1, h2, h3, h4⟩

/-- A walk changes only values of variables that have one. -/
theorem Walk.dom {cls : List Cls} {n : Nat} {a b : Nat → Option Bool} (h : Walk cls n a b) (v : Nat) : b v = none ↔ a v = none := by
  induction h with
  | here => rfl
  | step _ _ _ _ ih => rw [ih]; unfold flipped; split <;> simp

/-- **C73**: the start used by the solver has values for all variables, so that the search never panics in any state of the solver; the
result has values for the same variables. -/
theorem C73_in_the_solver {cfg : Cfg} {F : Form} {db : Cdb} {s : Stk} (h : Visited cfg F db s) (p : Ph) {w : Nat → Nat → K} (hw : ∀ u n, 0 < w u n)
    {limit : Nat} (hl : 0 < limit) : ∃ n m b, db.sls w (p.ref s) limit = some ((n, m), b) ∧ n = numFalsified (p.ref s) db.liveCls ∧
      m = numFalsified b db.liveCls ∧ ∀ v, b v ≠ none ↔ v ≤ s.numVars := by
  have hb := C66_in_bounds h
  have hc : Covers (p.ref s) db.liveCls := by
    intro c hc l hl
    obtain ⟨-, i, rfl⟩ := (C73_live_clauses h c).1 hc
    have := (hb.lits i l hl).2
    unfold Ph.ref; rw [if_pos this]; simp
  obtain ⟨n, m, b, k, e, h1, h2, h3, -⟩ := C73_local_search hw hc hl
  refine ⟨n, m, b, e, h1, h2, fun v => ?_⟩
  rw [ne_eq, h3.dom v]
  unfold Ph.ref
  split <;> simp_all

/-- **C73**, one step: the false clauses are counted, the target is one of them, and for each of its variables the number of clauses
that a flip would make false is right; the variable is drawn in proportion to the weights of these numbers (`r` is the random
number, in percent). -/
theorem C73_step {cls : List Cls} (hd : ∀ c ∈ cls, (c.map Lit.var).Nodup) (hne : ∀ c ∈ cls, c ≠ []) {a : Nat → Option Bool} (ha : Covers a cls) (step : Nat)
    {w : Nat → K} (hw : ∀ n, 0 < w n) (seed : Nat) (hu : numFalsified a cls ≠ 0) :
    ∃ ft pre l post, slsScan a step cls (0, fun _ => none, none) = some (numFalsified a cls, ft, some (pre ++ l :: post)) ∧
      pre ++ l :: post ∈ cls ∧ Falsified a (pre ++ l :: post) ∧ (∀ x ∈ pre ++ l :: post, ft x.var = some (numBroken a cls x.var)) ∧
      pickVar w ft seed (pre ++ l :: post) = some (some l.var) ∧
      let W : Cls → K := fun c => (c.map fun x => w (numBroken a cls x.var)).sum
      let r : K := ((seed % 100 : Nat) : K) / 100
      r * W (pre ++ l :: post) ≤ W (pre ++ [l]) ∧ (pre = [] ∨ W pre < r * W (pre ++ l :: post)) := by
  obtain ⟨ft, t, e1, e2, e3, e4, e5, e6⟩ := slsScan_spec (step := step) ha 0 (fun _ => none) none
  rw [Nat.zero_add] at e1
  obtain ⟨c, hc, hf, rfl, hft⟩ : ∃ c ∈ cls, Falsified a c ∧ t = some c ∧ ∀ l ∈ c, ft l.var ≠ none := by
    rcases e4 with e4 | e4
    · exact absurd e4 (e6 (by omega))
    · exact e4
  have hval : ∀ x ∈ c, ft x.var = some (numBroken a cls x.var) := by
    intro x hx
    have h1 := e2 x.var
    have h2 := hft x hx
    rw [crit_eq ha hd] at h1
    cases hv : ft x.var with
    | none => exact absurd hv h2
    | some n => rw [hv] at h1; simpa using h1
  obtain ⟨pre, l, post, p1, p2, p3, p4⟩ := pickVar_spec hw (hne c hc) hft seed
  subst p1
  have hW : ∀ d : Cls, (∀ x ∈ d, x ∈ pre ++ l :: post) →
      (d.map fun x => w ((ft x.var).getD 0)).sum = (d.map fun x => w (numBroken a cls x.var)).sum := by
    intro d hd
    congr 1
    refine List.map_congr_left fun x hx => ?_
    rw [hval x (hd x hx)]; rfl
  refine ⟨ft, pre, l, post, e1, hc, hf, hval, p2, ?_, ?_⟩
  · rw [hW _ (fun _ h => h), hW _ (by intro x hx; simp at hx ⊢; tauto)] at p3
    exact p3
  · rw [hW _ (fun _ h => h), hW pre (by intro x hx; simp; tauto)] at p4
    exact p4

end

/-- **C73**, the random numbers: whatever was flipped last, the computation stays below 2^64. -/
theorem C73_no_overflow (seed lastFlip : Nat) (hs : seed < 3754873) : nextSeed seed lastFlip < 3754873 ∧ low32Not seed * 1304003 < 2 ^ 64 ∧
    low32Not lastFlip * seed < 2 ^ 64 := by
  have h : ∀ x, low32Not x < 2 ^ 32 := fun x => by unfold low32Not; omega
  refine ⟨Nat.mod_lt _ (by omega), ?_, ?_⟩
  · have := h seed; omega
  · have h1 := h lastFlip
    calc low32Not lastFlip * seed ≤ 2 ^ 32 * 3754873 := Nat.mul_le_mul h1.le hs.le
      _ < 2 ^ 64 := by norm_num

/-- The weight 1 / (1 + breaks). -/
def exWeight (_ n : Nat) : Rat := 1 / (1 + n)

/-- An example: four clauses over three variables, of which the start falsifies one; a model is found with one flip. -/
example : ∃ b, (exSolver 3 [[1, 2], [1, 3], [-1, 2, 3], [-2, -3]]).db.sls exWeight (fun v => if v ≤ 3 then some (v == 1) else none) 5 = some ((1, 0), b) ∧
    numFalsified (fun v => if v ≤ 3 then some (v == 1) else none) (exSolver 3 [[1, 2], [1, 3], [-1, 2, 3], [-2, -3]]).db.liveCls = 1 ∧
    numFalsified b (exSolver 3 [[1, 2], [1, 3], [-1, 2, 3], [-2, -3]]).db.liveCls = 0 := by
  have hw : ∀ u n, 0 < exWeight u n := by
    intro u n; unfold exWeight; positivity
  obtain ⟨n, m, b, k, e, h1, h2, -⟩ := C73_local_search hw (db := (exSolver 3 [[1, 2], [1, 3], [-1, 2, 3], [-2, -3]]).db)
    (a := fun v => if v ≤ 3 then some (v == 1) else none) (by decide +kernel) (limit := 5) (by omega)
  have h3 : numFalsified (fun v => if v ≤ 3 then some (v == 1) else none) (exSolver 3 [[1, 2], [1, 3], [-1, 2, 3], [-2, -3]]).db.liveCls = 1 := by decide +kernel
  have h4 : ((exSolver 3 [[1, 2], [1, 3], [-1, 2, 3], [-2, -3]]).db.sls exWeight (fun v => if v ≤ 3 then some (v == 1) else none) 5).map
    (fun r => r.1.2) = some 0 := by decide +kernel
  rw [e] at h4
  simp at h4
  subst h4
  exact ⟨b, by rw [e, h1, h3], h3, h2.symm⟩

/-- Its first step: one false clause, ¬1 ∨ 2 ∨ 3; flipping 2 or 3 breaks nothing, flipping 1 breaks two clauses. -/
example : let cls := [[1, 2], [1, 3], [-1, 2, 3], [-2, -3]].map clsOf
    let a : Nat → Option Bool := fun v => if v ≤ 3 then some (v == 1) else none
    (∀ c ∈ cls, (c.map Lit.var).Nodup) ∧ (∀ c ∈ cls, c ≠ []) ∧ Covers a cls ∧ numFalsified a cls = 1 ∧
    numBroken a cls 1 = 2 ∧ numBroken a cls 2 = 0 := by decide +kernel

/-- In the solver: at a conflict on four levels, with a phase for each variable, the start falsifies a clause that is held. -/
example : ∃ c : Conf, Visited {} (exDeep.map clsOf) c.1 c.2.1 ∧ 0 < numFalsified (Ph.new.ref c.2.1) c.1.liveCls ∧
    (Ph.new.ref c.2.1) 5 = some true ∧ c.1.sls exWeight (Ph.new.ref c.2.1) 50 ≠ none := by
  have h : exConf.any (fun c => decide (0 < numFalsified (Ph.new.ref c.2.1) c.1.liveCls ∧ (Ph.new.ref c.2.1) 5 = some true)) = true := by decide +kernel
  obtain ⟨c, hc, h⟩ := (Option.any_eq_true _ _).1 h
  simp only [decide_eq_true_eq] at h
  have hv : Visited {} (exDeep.map clsOf) c.1 c.2.1 := .conflict (.of exDeep_built hc)
  obtain ⟨n, m, b, e, -⟩ := C73_in_the_solver hv Ph.new (w := exWeight) (by intro u n; unfold exWeight; positivity) (limit := 50) (by omega)
  exact ⟨c, hv, h.1, h.2, by rw [e]; simp⟩

/-! ## what becomes of the result -/

theorem mem_of_lookup {best : List (Nat × Bool)} {v : Nat} {b : Bool} (h : best.lookup v = some b) : (v, b) ∈ best := by
  induction best with
  | nil => simp at h
  | cons e best ih =>
    rw [List.lookup_cons] at h
    split at h
    · rename_i hv
      have : v = e.1 := by simpa using hv
      subst this
      injection h with h
      subst h
      exact List.mem_cons_self
    · exact List.mem_cons_of_mem _ (ih h)

theorem override_keys (es : List (Nat × Bool)) : ∀ (best : List (Nat × Bool)) (v : Nat),
    (v ∈ best.map Prod.fst ∨ v ∈ es.map Prod.fst) →
    v ∈ (es.foldl (fun best e => if best.lookup e.1 = some e.2 then best else insertPhase best e.1 e.2) best).map Prod.fst := by
  induction es with
  | nil => intro best v h; simpa using h
  | cons e es ih =>
    intro best v h
    rw [List.foldl_cons]
    refine ih _ v ?_
    by_cases hv : v ∈ es.map Prod.fst
    · exact .inr hv
    left
    have h' : v ∈ best.map Prod.fst ∨ v = e.1 := by
      rcases h with h | h
      · exact .inl h
      · rw [List.map_cons, List.mem_cons] at h
        exact .inr (h.resolve_right hv)
    split
    · rename_i hlk
      rcases h' with h | rfl
      · exact h
      · exact List.mem_map.2 ⟨_, mem_of_lookup hlk, rfl⟩
    · unfold insertPhase
      rw [List.map_cons, List.mem_cons]
      by_cases hve : v = e.1
      · exact .inl hve
      · right
        obtain ⟨x, hx, rfl⟩ := List.mem_map.1 (h'.resolve_right hve)
        exact List.mem_map.2 ⟨x, List.mem_filter.2 ⟨hx, by simpa using hve⟩, rfl⟩

/-- **C73 is violated**: the result of the local search never has an effect on the phases. It has a value for every variable, so that
more phases are recorded than there are variables, and `select_rephasing_target`, which is called next (search.rs:346), drops them all
(select.rs:103-106; or it finds that one contradicts a fact, since facts get the value false, and drops them, select.rs:102). `es` are the
entries of the result in any order. -/
theorem C73_violated (p : Ph) (s : Stk) (es : List (Nat × Bool)) (h : ∀ v, v ≤ s.numVars → ∃ b, (v, b) ∈ es) :
    ((p.override es).rephase s).phase = p.phase ∧ ((p.override es).rephase s).best = [] := by
  have hk : ∀ v ≤ s.numVars, v ∈ (p.override es).best.map Prod.fst := by
    intro v hv
    obtain ⟨b, hb⟩ := h v hv
    exact override_keys es p.best v (.inr (List.mem_map.2 ⟨_, hb, rfl⟩))
  have hlen : s.numVars + 1 ≤ (p.override es).best.length := by
    have : List.range (s.numVars + 1) ⊆ (p.override es).best.map Prod.fst := fun v hv => hk v (by simpa [Nat.lt_succ_iff] using hv)
    have := (List.nodup_range.subperm this).length_le
    simpa using this
  have hph : (p.override es).phase = p.phase := rfl
  unfold Ph.rephase
  split
  · rename_i hb; exact ⟨rfl, hb⟩
  · by_cases hc : (p.override es).best.any (fun e => decide (s.assign e.1 = some !e.2)) = true
    · have e : (p.override es).check s = { p.override es with best := [], numBest := s.numAsserted + s.numElim } := by
        unfold Ph.check; rw [if_pos hc]
      rw [e]
      simp only
      split
      · exact ⟨rfl, rfl⟩
      · exact ⟨by funext v; simp [hph], rfl⟩
    · have e : (p.override es).check s = p.override es := by
        unfold Ph.check; rw [if_neg hc]
      rw [e]
      simp only
      rw [if_pos (by omega)]
      exact ⟨rfl, rfl⟩

/-- So in the solver, for the result of every local search. -/
theorem C73_violated_in_the_solver {K : Type} [Field K] [LinearOrder K] [IsStrictOrderedRing K] {cfg : Cfg} {F : Form} {db : Cdb} {s : Stk}
    (h : Visited cfg F db s) (p : Ph) {w : Nat → Nat → K} (hw : ∀ u n, 0 < w u n) {limit : Nat} (hl : 0 < limit) :
    ∃ r b, db.sls w (p.ref s) limit = some (r, b) ∧ ((p.override (entriesUpto s.numVars b)).rephase s).phase = p.phase := by
  obtain ⟨n, m, b, e, -, -, h3⟩ := C73_in_the_solver h p hw hl
  refine ⟨(n, m), b, e, (C73_violated p s _ fun v hv => ?_).1⟩
  have := (h3 v).2 hv
  cases hb : b v with
  | none => exact absurd hb this
  | some x =>
    refine ⟨x, ?_⟩
    unfold entriesUpto
    refine List.mem_filterMap.2 ⟨v, by simpa [Nat.lt_succ_iff] using hv, by simp [hb]⟩

/-- **C73**, no step allowed: `(0, 0)` is returned, whatever the assignment falsifies. (The number of steps, search.rs:334-340, is a
quotient and may be 0.) -/
theorem C73_no_step {K : Type} [Field K] [LinearOrder K] (w : Nat → Nat → K) (db : Cdb) (a : Nat → Option Bool) : db.sls w a 0 = some ((0, 0), a) := rfl

end Splr
