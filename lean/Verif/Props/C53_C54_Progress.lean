import Verif.Lemmas.Fresh
/-!
# C53, C54: learnt clauses are new, and a stage of the search is finite
-/
namespace Splr
open Stk

/-! ## C53 -/

/-- **C53.** The clause learnt from a conflict is new: no clause the solver holds is contained in it, unless it is one with a
literal that is false for good (at the root level). -/
theorem C53_learnt_clause_is_new {cfg : Cfg} {F : Form} {db : Cdb} {s : Stk} {l : Lit} {r : Reason} (h : Conflict cfg F db s l r) (hd : 0 < s.dl)
    {v : Cls} {lv : Nat} {seen : Nat → Bool} (e : conflictAnalyze db s l r = some (v, lv, seen)) {c : Cls} (hc : Held db c)
    (hf : ∀ x ∈ c, ¬ Fact s x.neg) : ∃ x ∈ c, x ∉ v := by
  obtain ⟨p, -, hco, -⟩ := h.inv
  have hl := (conflictAnalyze_spec p.wf p.inv hd hco e).1
  obtain ⟨⟨hh, hr, ed⟩, ep⟩ := h
  rename_i s0 q x o
  obtain ⟨F', -, hs⟩ := hh.sok
  obtain ⟨Z, hw, hn⟩ := hh.lv
  obtain ⟨p1, t1, -⟩ := decideStep_spec (k := true) (r := false) hs.pinv hs.dom ed
  have hpw := propagate_wtB (q := q) p1 (decideStep_wt hs.pinv hw ed)
  have hg := propagate_good (q := q) p1
  rw [ep] at hpw hg
  have n2 : Nz Z db s := hg.1.nz p1.wf (hn.decideStep (fun l => t1.root l) ed)
  obtain ⟨hne, i, rfl⟩ := hc
  have := not_sub_learnt p.wf p.inv hpw hl (i := i) ⟨hne, fun w w2 hz => ?_⟩
  · simpa using this
  · exact hf w (by rcases w2 with h | h <;> exact List.mem_of_getElem? h) (n2.root w hz)

/-- **C53**, for runs in which every elimination is tidy (and thus for all runs without the eliminator): no exception. -/
theorem C53_tidy {cfg : Cfg} {F : Form} {x : Sol} (h : TidyHead cfg F x) {o : Orc} {s0 : Stk} (ed : decideStep o x.s = some s0) {q : Nat} {db : Cdb} {s : Stk}
    {l : Lit} {r : Reason} (ep : propagate q x.db s0 = .conflict db s l r) (hd : 0 < s.dl)
    {v : Cls} {lv : Nat} {seen : Nat → Bool} (e : conflictAnalyze db s l r = some (v, lv, seen)) {c : Cls} (hc : Held db c) : ∃ x ∈ c, x ∉ v := by
  obtain ⟨F', -, hs⟩ := h.head.sok
  obtain ⟨p1, -⟩ := decideStep_spec (k := true) (r := false) hs.pinv hs.dom ed
  have hpw := propagate_wt (q := q) p1 (decideStep_wt hs.pinv h.wt ed)
  have hg := propagate_good (q := q) p1
  rw [ep] at hpw hg
  obtain ⟨st, hco⟩ := hg
  have p := (st.all p1).1
  have hl := (conflictAnalyze_spec p.wf p.inv hd hco e).1
  obtain ⟨hne, i, rfl⟩ := hc
  have := not_sub_learnt (Z := fun _ => False) p.wf p.inv (hpw.mono fun _ _ h => .inr h) hl (i := i) ⟨hne, fun w w2 hz => hz⟩
  simpa using this

/-- A conflict at the fourth level of `exDeep`: ¬5 ∨ ¬2 ∨ ¬1 is learnt, and 6 ∨ ¬5 ∨ ¬1 ∨ ¬2 is held. -/
example : ∃ db s l r, Conflict {} (exDeep.map clsOf) db s l r ∧ 0 < s.dl ∧ (∃ lv seen, conflictAnalyze db s l r = some ([⟨5, false⟩, ⟨2, false⟩, ⟨1, false⟩], lv, seen)) ∧
    Held db [⟨6, true⟩, ⟨5, false⟩, ⟨1, false⟩, ⟨2, false⟩] ∧ ∀ x ∈ [(⟨6, true⟩ : Lit), ⟨5, false⟩, ⟨1, false⟩, ⟨2, false⟩], ¬ Fact s x.neg := by
  have h : exConf.any (fun c => decide (0 < c.2.1.dl ∧ ((conflictAnalyze c.1 c.2.1 c.2.2.1 c.2.2.2).any fun v => v.1 == [⟨5, false⟩, ⟨2, false⟩, ⟨1, false⟩]) = true ∧
    (c.1.clause 1).lits = [⟨6, true⟩, ⟨5, false⟩, ⟨1, false⟩, ⟨2, false⟩] ∧ c.2.1.level 6 ≠ 0 ∧ c.2.1.level 5 ≠ 0 ∧ c.2.1.level 1 ≠ 0 ∧ c.2.1.level 2 ≠ 0)) = true := by decide +kernel
  obtain ⟨⟨db, s, l, r⟩, hw, h⟩ := (Option.any_eq_true _ _).1 h
  simp only [decide_eq_true_eq] at h
  obtain ⟨h1, h2, h3, h4⟩ := h
  obtain ⟨⟨v, lv, seen⟩, e, h2⟩ := (Option.any_eq_true _ _).1 h2
  simp only [beq_iff_eq] at h2
  subst h2
  refine ⟨db, s, l, r, Conflict.of exDeep_built hw, h1, ⟨lv, seen, e⟩, ⟨by simp, 1, h3⟩, ?_⟩
  simp [Fact, Lit.neg, h4]

/-! ## C54 -/

/-- The number of iterations, for `n` variables. -/
def stageBound (n : Nat) : Nat := (4 ^ n + n) * (n + 2) + n + 1

/-- **C54.** The search cannot go on for ever without the end of a stage: from any state of the main loop, and for any decisions,
conflicts, backjumps and restarts, after `stageBound n` iterations in which no stage ends the search is over. (At the end of a
stage the time limit is checked and clauses are removed.) -/
theorem C54_stages_are_finite {cfg : Cfg} {F : Form} {x : Sol} (h : Head cfg F x) {os : List Orc} (ho : ∀ o ∈ os, o.stage = none)
    (hl : stageBound x.s.numVars < os.length) {y : Sol} (e : search cfg os x = .ok y) : y.s.running = false := by
  obtain ⟨F', -, hs⟩ := h.sok
  obtain ⟨Z, hw, hn⟩ := h.lv
  exact search_finite hs hw hn ho (Nat.lt_of_le_of_lt (todo_le Z _ x) hl) e

/-- The hypotheses hold: a search with 4 variables, given 1566 choices, ends. -/
example : ∃ x y, Head {} (exSat.map clsOf) x ∧ (∀ o ∈ List.replicate 1566 plainOrc, o.stage = none) ∧ stageBound x.s.numVars < (List.replicate 1566 plainOrc).length ∧
    x.s.running = true ∧ search {} (List.replicate 1566 plainOrc) x = .ok y := by
  have hb : Built (exSat.map clsOf) (exSolver 4 exSat) := exBuilt (by decide +kernel)
  have h : (match preprocess {} plainPre (exSolver 4 exSat) with
    | .ok x => decide (stageBound x.s.numVars < 1566 ∧ x.s.running = true) && (match search {} (List.replicate 1566 plainOrc) x with | .ok _ => true | _ => false)
    | _ => false) = true := by decide +kernel
  split at h
  · rename_i x e
    simp only [Bool.and_eq_true, decide_eq_true_eq] at h
    obtain ⟨⟨h1, h2⟩, h3⟩ := h
    split at h3
    · rename_i y e2
      exact ⟨x, y, .start hb e, fun o ho => by rw [(List.mem_replicate.1 ho).2]; rfl, by rw [List.length_replicate]; exact h1, h2, e2⟩
    · cases h3
  · cases h

/-- **C54**, for `solve`: it answers. -/
theorem C54_solve_answers {F : Form} {x : Sol} (h : Built F x) (cfg : Cfg) (p : Pre) {os : List Orc} (ho : ∀ o ∈ os, o.stage = none)
    (hl : stageBound x.s.numVars < os.length) (low : Nat → Bool) (y : Sol) : solve cfg p os low x ≠ .more y := by
  intro e
  unfold solve at e
  split at e
  · rename_i z hz
    obtain ⟨u, e1, e2⟩ := Res.bind_ok hz
    split at e
    · rename_i hr
      obtain ⟨F', -, hs⟩ := preprocess_any h.bok.1 e1
      have := C54_stages_are_finite (.start h e1) ho (by rw [hs.nvar]; exact hl) e2
      rw [this] at hr; cases hr
    · rename_i hr
      unfold finish at e
      split at e
      · cases e
      · split at e
        · cases e
        · split at e <;> cases e
  all_goals cases e

end Splr
