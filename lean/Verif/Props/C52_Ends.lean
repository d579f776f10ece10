import Verif.Lemmas.EndsSearch
/-!
# C52: `solve` never panics

The model has an explicit value `panic` for each `unwrap` of a missing value, index out of range, failed assertion and
`unreachable!` of the modelled code, and `fuel` for a loop that is not over after a bounded number of rounds.
-/
namespace Splr
open Stk

/-- **C52.** A solver of fewer than 65535 variables, all of them declared when it was constructed (`cnf` is the number of
variables given then; only `add_var` makes `numVars` exceed it, see `C52_sizes` and `C27_violated`): `solve` does not panic, and
none of the loops within an iteration of the main loop runs forever, whatever the configuration and the decisions of the
heuristics are, for as many iterations of the main loop as one likes. -/
theorem C52_solve_never_panics {F : Form} {x : Sol} (h : Built F x) (hn : x.s.numVars < 65535) (hc : x.s.numVars ≤ x.cnf)
    (cfg : Cfg) (p : Pre) (os : List Orc) (low : Nat → Bool) :
    solve cfg p os low x ≠ .panic ∧ solve cfg p os low x ≠ .fuel := solve_ends h hn hc

/-- The hypotheses hold, for a run in which a variable is eliminated. -/
example : Built (exSat.map clsOf) (exSolver 4 exSat) ∧ (exSolver 4 exSat).s.numVars < 65535 ∧ (exSolver 4 exSat).s.numVars ≤ (exSolver 4 exSat).cnf ∧
    (solve {} elimPre (List.replicate 9 stageOrc) noLow (exSolver 4 exSat)).verdict = .sat [1, -2, 3, 4] :=
  ⟨exBuilt (by decide +kernel), by decide +kernel, by decide +kernel, by decide +kernel⟩

/-- The number of variables and the number declared agree from the start, and adding clauses and assignments keeps both. -/
theorem C52_sizes : (∀ nv, (Sol.new nv).s.numVars = nv ∧ (Sol.new nv).cnf = nv) ∧
    (∀ {F : Form} {x : Sol}, Built F x → (∀ v y e, x.addClause v = some (y, e) → y.s.numVars = x.s.numVars ∧ y.cnf = x.cnf) ∧
      (∀ i, (x.addAssignment i).1.s.numVars = x.s.numVars ∧ (x.addAssignment i).1.cnf = x.cnf)) := by
  refine ⟨fun nv => ⟨rfl, rfl⟩, fun {F x} h => ⟨fun v y e hy => ?_, fun i => ?_⟩⟩
  · obtain ⟨y', e', h1, h2, h3, -⟩ := addClause_spec h.bok.1 v
    rw [hy] at h1; cases h1
    exact ⟨h3, h2⟩
  · have := addAssignment_spec h.bok.1 i
    exact ⟨this.2.1, this.1⟩

/-- A clause that has been given, an error and an assignment. -/
example : Built ([[1, 2, 3], [-1, -2], [-2, 3], [3, 4], [-3, -4, 1]].map clsOf) (exSolver 4 exSat) ∧
    ((exSolver 4 exSat).addClause [1, 4, -3]).isSome ∧ ((exSolver 4 exSat).addAssignment 4).2 = none := ⟨exBuilt (by decide +kernel), by decide +kernel, by decide +kernel⟩

/-- **C52**, conflicts: every conflict found above the root level has a literal of the current level, so its analysis, the
backjump and learning go through. -/
theorem C52_conflicts_are_handled {cfg : Cfg} {F : Form} {db : Cdb} {s : Stk} {l : Lit} {r : Reason} (h : Conflict cfg F db s l r) (hd : 0 < s.dl) :
    (∃ c, Held db c ∧ Names db l r c ∧ (∀ x ∈ c, Fails s x) ∧ ∃ x ∈ c, s.level x.var = s.dl) ∧
    ∀ low rr drift, handleConflict db s low rr drift l r ≠ .panic := by
  obtain ⟨p, -, hc, -⟩ := h.inv
  have ht := h.top
  refine ⟨?_, fun low rr drift => handle_ends p hd hc ht⟩
  obtain ⟨c, h1, h2, h3, h4⟩ := ConfOK.clause hc
  refine ⟨c, h1, h2, h4, ?_⟩
  rcases ht with ht | ⟨q, hq, ht⟩
  · exact ⟨l, h3, ht⟩
  · cases r with
    | none => exact hc.elim
    | decision k => exact hc.elim
    | binary m =>
      simp only [antecedents, List.mem_singleton] at hq
      subst hq
      refine ⟨q.neg, ?_, ht⟩
      rcases h2 with e | e <;> rw [e] <;> simp
    | impl cid =>
      simp only [Names] at h2
      subst h2
      exact ⟨q, List.drop_subset _ _ hq, ht⟩

/-- A conflict at level 4. -/
example : ∃ c : Conf, Conflict {} (exDeep.map clsOf) c.1 c.2.1 c.2.2.1 c.2.2.2 ∧ 0 < c.2.1.dl := by
  have h : exConf.any (fun c => decide (0 < c.2.1.dl)) = true := by decide +kernel
  obtain ⟨c, hc, h⟩ := (Option.any_eq_true _ _).1 h
  exact ⟨c, .of exDeep_built hc, by simpa using h⟩

theorem unassigned_nonneg {db : Cdb} {s : Stk} (hi : Inv db s) (hd : Dom db s) (hc : Cnt s) : 0 ≤ s.unassigned := by
  obtain ⟨A, E, a1, a2, a3, e1, e2, e3⟩ := hc
  have has : ∀ v ∈ A ++ s.trail.map Lit.var, s.assign v ≠ none := by
    intro v hv
    rcases List.mem_append.1 hv with hv | hv
    · exact ((a3 v).1 hv).1
    · obtain ⟨l, hl, rfl⟩ := List.mem_map.1 hv; exact tr_assigned (hi.tv l hl)
  have hnd : (A ++ s.trail.map Lit.var ++ E).Nodup := by
    refine List.nodup_append.2 ⟨List.nodup_append.2 ⟨a1, hi.nd, ?_⟩, e1, ?_⟩
    · rintro v hv w hw rfl; exact ((a3 v).1 hv).2 hw
    · rintro v hv w hw rfl
      have := (hd.as v (has v hv)).2.2
      rw [((e3 v).1 hw).1] at this; exact absurd this (by simp)
  have := length_le_of_vars hnd (n := s.numVars) fun v hv => by
    rcases List.mem_append.1 hv with hv | hv
    · have := hd.as v (has v hv); exact ⟨this.1, this.2.1⟩
    · exact ((e3 v).1 hv).2
  simp only [List.length_append, List.length_map] at this
  unfold Stk.unassigned; omega

/-- **C52**, the counter: the number of undecided variables, which the code computes by subtractions of machine numbers, is
never negative. -/
theorem C52_counter {cfg : Cfg} {F : Form} {x : Sol} (h : Head cfg F x) : 0 ≤ x.s.unassigned := by
  obtain ⟨F', -, h1⟩ := h.sok
  obtain ⟨recs, g, -⟩ := h1.glob
  exact unassigned_nonneg h1.pinv.inv h1.dom g.cnt

/-- A state of the main loop with seven undecided variables. -/
example : ∃ x, Head {} (exDeep.map clsOf) x ∧ x.s.unassigned = 7 := by
  have h : (headOf {} plainPre (List.replicate 3 plainOrc) (exSolver 11 exDeep)).any (fun y => decide (y.s.unassigned = 7)) = true := by decide +kernel
  obtain ⟨y, hy, h⟩ := (Option.any_eq_true _ _).1 h
  exact ⟨y, (Head.of exDeep_built hy).1, by simpa using h⟩

end Splr
