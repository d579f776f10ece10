import Verif.Lemmas.ElimExact
import Verif.Props.C14_C19_Process
/-! # C43: occurrence lists -/
namespace Splr

/-- **C43.** Whenever the eliminator is between two steps of its work (after `prepare`, after the assertion of pure literals, after
each subsumption, strengthening, elimination and propagation): the occurrence list of each literal whose variable has no value and
has not been given up lists the live clauses with the literal, each once, and nothing else. `d.1.clause i` has no literals if no
clause `i` is alive. -/
theorem C43_occurrences {cfg : Cfg} {F : Form} {d : DS} {e : El} (h : Inner cfg F d (some e)) (l : Lit) (hn : d.2.assign l.var = none)
    (hab : e.aborted l.var = false) : (e.occ l).Nodup ∧ ∀ i, i ∈ e.occ l ↔ l ∈ (d.1.clause i).lits := by
  obtain ⟨h1, h2⟩ := h.exact e rfl l hn hab
  obtain ⟨_, -, _, _, _, -, -, -, ho, -⟩ := h.ok
  exact ⟨h1, fun i => ⟨h2 i, fun hm => ho i l hm hab⟩⟩

/-- **C43.** Also for the literals with a value: no clause with the literal is missing in its list. A literal that became false can
be removed from all the clauses it is in by going through its list. -/
theorem C43_no_clause_missed {cfg : Cfg} {F : Form} {d : DS} {e : El} (h : Inner cfg F d (some e)) (l : Lit) (hab : e.aborted l.var = false) (i : Nat)
    (hm : l ∈ (d.1.clause i).lits) : i ∈ e.occ l := by
  obtain ⟨_, -, _, _, _, -, -, -, ho, -⟩ := h.ok
  exact ho i l hm hab

/-- A literal with a value that is still in a clause: ¬5 in clause 4. -/
example : ∃ d e, Inner {} (exSub.map clsOf) d (some e) ∧ d.2.assign 5 = some true ∧ e.aborted 5 = false ∧ ⟨5, false⟩ ∈ (d.1.clause 4).lits := by
  have h : (innerOf [] (exSolver 5 exSub)).any (fun y =>
      decide (y.1.2.assign 5 = some true ∧ y.2.aborted 5 = false ∧ ⟨5, false⟩ ∈ (y.1.1.clause 4).lits)) = true := by
    decide +kernel
  obtain ⟨y, hy, h⟩ := (Option.any_eq_true _ _).1 h
  simp only [decide_eq_true_eq] at h
  exact ⟨y.1, y.2, Inner.of (exBuilt (by decide +kernel)) hy, h⟩

/-- So a literal with an empty list is in no clause: asserting its negation (a pure literal) or eliminating its variable sees all
clauses. -/
theorem C43_pure {cfg : Cfg} {F : Form} {d : DS} {e : El} (h : Inner cfg F d (some e)) (l : Lit) (hn : d.2.assign l.var = none)
    (hab : e.aborted l.var = false) : e.occ l = [] ↔ ∀ i, l ∉ (d.1.clause i).lits := by
  have := (C43_occurrences h l hn hab).2
  constructor
  · intro he i hm
    have := (this i).2 hm
    rw [he] at this; simp at this
  · intro ha
    rw [List.eq_nil_iff_forall_not_mem]
    exact fun i hm => ha i ((this i).1 hm)

/-- After a subsumption, a strengthening and an elimination: variables 1 and 4 still have clauses. -/
example : ∃ d e, Inner {} (exSub.map clsOf) d (some e) ∧ d.2.elim 2 = true ∧ d.2.assign 1 = none ∧ e.aborted 1 = false ∧
    d.2.assign 4 = none ∧ e.aborted 4 = false ∧ (e.occ ⟨4, true⟩).length + (e.occ ⟨3, true⟩).length + (e.occ ⟨1, true⟩).length ≠ 0 ∧
    (d.1.clause 1).lits = [] := by
  have h : (innerOf [.subsume 2 1, .lifted ⟨5, true⟩ 4, .elimVar 2] (exSolver 5 exSub)).any (fun y =>
      decide (y.1.2.elim 2 = true ∧ y.1.2.assign 1 = none ∧ y.2.aborted 1 = false ∧ y.1.2.assign 4 = none ∧ y.2.aborted 4 = false ∧
        (y.2.occ ⟨4, true⟩).length + (y.2.occ ⟨3, true⟩).length + (y.2.occ ⟨1, true⟩).length ≠ 0 ∧ (y.1.1.clause 1).lits = [])) = true := by
    decide +kernel
  obtain ⟨y, hy, h⟩ := (Option.any_eq_true _ _).1 h
  simp only [decide_eq_true_eq] at h
  exact ⟨y.1, y.2, Inner.of (exBuilt (by decide +kernel)) hy, h⟩

/-- The condition on the value is necessary: `remove_cid_occur` leaves a removed clause in the lists of its assigned literals
(here the satisfied clause of variable 5, subsumed by another one). The eliminator tests each clause of these lists before it uses it (`ECmd.lifted`). -/
example : ∃ d e, Inner {} (exSub.map clsOf) d (some e) ∧ e.aborted 5 = false ∧ ∃ i ∈ e.occ ⟨5, false⟩, (d.1.clause i).lits = [] := by
  have h : (innerOf [.subsume 2 4] (exSolver 5 exSub)).any (fun y =>
      decide (y.2.aborted 5 = false) && (y.2.occ ⟨5, false⟩).any (fun i => decide ((y.1.1.clause i).lits = []))) = true := by
    decide +kernel
  obtain ⟨y, hy, h⟩ := (Option.any_eq_true _ _).1 h
  simp only [Bool.and_eq_true, decide_eq_true_eq, List.any_eq_true] at h
  exact ⟨y.1, y.2, Inner.of (exBuilt (by decide +kernel)) hy, h⟩

end Splr
