import Verif.Lemmas.GoneSearch
import Verif.Props.C14_C19_Process
/-!
# C58: where the assigned variables are

After `clear_asserted_literals` the trail is empty, although variables keep their values (src/assign/propagate.rs:746-767).
-/
namespace Splr
open Stk

/-- **C58.** In every reachable state: a literal of a clause the solver holds whose variable has a value is on the trail, or its negation is. A value that has been taken
off the trail is in no clause, so the later propagations, which only look at the trail, miss nothing. -/
theorem C58_on_the_trail {cfg : Cfg} {F : Form} {db : Cdb} {s : Stk} (h : Visited cfg F db s) {c : Cls} (hc : Held db c) {l : Lit} (hl : l ∈ c) (ho : ¬ Open s l) :
    (l ∈ s.trail ∧ Holds s l) ∨ (l.neg ∈ s.trail ∧ Fails s l) := by
  obtain ⟨-, i, rfl⟩ := hc
  have hm : l.var ∈ s.trail.map Lit.var := by
    by_contra hx
    exact h.ac _ ⟨i, l, hl, rfl⟩ ⟨ho, hx⟩
  obtain ⟨m, ht0, e⟩ := List.mem_map.1 hm
  have ht : s.assign m.var = some m.pos := h.inv.inv.tv m ht0
  by_cases hp : m.pos = l.pos
  · left
    have : m = l := by cases l; cases m; simp_all
    subst this
    exact ⟨ht0, ht⟩
  · right
    have hp' : m.pos = !l.pos := by cases hm' : m.pos <;> cases hl' : l.pos <;> simp_all
    have : m = l.neg := by cases l; cases m; simp_all [Lit.neg]
    subst this
    exact ⟨ht0, by unfold Fails; rw [← e, ht, hp']⟩

/-- **C58.** `clear_asserted_literals` ends with an empty trail, all clauses it leaves consist of unassigned literals, no value is lost, and the models are the same. -/
theorem C58_cleared {cfg : Cfg} {F : Form} {d d' : DS} (h : Inner cfg F d none) (e : clearAsserted d = .ok d') :
    d'.2.trail = [] ∧ (∀ c, Held d'.1 c → ∀ l ∈ c, Open d'.2 l) ∧ (∀ l, Holds d.2 l → Holds d'.2 l) ∧ ∀ b, IsModel d'.1 d'.2 b ↔ IsModel d.1 d.2 b := by
  obtain ⟨F', -, recs, g, hl, -⟩ := h.ok
  obtain ⟨-, -, hs⟩ := ka_clearAsserted ⟨g.rinv, g.dom, h.ac⟩ hl e
  have ht := (rg_clearAsserted (r := true) g.rinv hl g.dom)
  rw [e] at ht
  refine ⟨?_, ?_, fun l hh => ?_, fun b => g.models ht.1 b⟩
  · unfold clearAsserted at e
    obtain ⟨a, -, e2⟩ := Res.bind_ok e
    cases e2
    rfl
  · rintro c ⟨-, i, rfl⟩ l hm
    exact hs _ ⟨i, l, hm, rfl⟩
  · exact (ht.1.root l ⟨hh, g.rinv.inv.level_root hl (tr_assigned hh)⟩).1

/-- Two unit clauses and clauses with their variables: after `clear_asserted_literals` the trail is empty, 1 and 4 keep their values, and one clause of two literals is left. -/
example : ∃ d', Inner {} ([[1, 2, 3], [-1, 2, 5], [1], [-1, 4]].map clsOf) ((exSolver 5 [[1, 2, 3], [-1, 2, 5], [1], [-1, 4]]).db, (exSolver 5 [[1, 2, 3], [-1, 2, 5], [1], [-1, 4]]).s) none ∧
    clearAsserted ((exSolver 5 [[1, 2, 3], [-1, 2, 5], [1], [-1, 4]]).db, (exSolver 5 [[1, 2, 3], [-1, 2, 5], [1], [-1, 4]]).s) = .ok d' ∧ d'.2.assign 4 = some true ∧ d'.2.assign 1 = some true ∧
    Held d'.1 [⟨5, true⟩, ⟨2, true⟩] := by
  have h : (match clearAsserted ((exSolver 5 [[1, 2, 3], [-1, 2, 5], [1], [-1, 4]]).db, (exSolver 5 [[1, 2, 3], [-1, 2, 5], [1], [-1, 4]]).s) with
    | .ok d' => decide (d'.2.assign 4 = some true ∧ d'.2.assign 1 = some true) && d'.1.ids.any fun i => decide ((d'.1.clause i).lits = [⟨5, true⟩, ⟨2, true⟩])
    | _ => false) = true := by decide +kernel
  split at h
  · rename_i d' e
    simp only [Bool.and_eq_true, decide_eq_true_eq, List.any_eq_true] at h
    obtain ⟨⟨h1, h2⟩, i, -, h3⟩ := h
    exact ⟨d', .built (exBuilt (by decide +kernel)), e, h1, h2, by simp, i, h3⟩
  · cases h

/-- A conflict of the main loop at level 4: a clause all of whose variables have values. -/
example : ∃ c : Conf, Visited {} (exDeep.map clsOf) c.1 c.2.1 ∧ c.2.1.dl = 4 ∧ ∃ cl, Held c.1 cl ∧ ∀ l ∈ cl, ¬ Open c.2.1 l := by
  have h : (match exConf with
    | some c => decide (c.2.1.dl = 4) && c.1.ids.any fun i => decide ((c.1.clause i).lits ≠ []) && (c.1.clause i).lits.all fun l => decide (c.2.1.assign l.var ≠ none)
    | none => false) = true := by decide +kernel
  split at h
  · rename_i c hc
    simp only [Bool.and_eq_true, decide_eq_true_eq, List.any_eq_true, List.all_eq_true] at h
    obtain ⟨h1, i, -, h2, h3⟩ := h
    exact ⟨c, .conflict (.of exDeep_built hc), h1, _, ⟨h2, i, rfl⟩, h3⟩
  · cases h

end Splr
