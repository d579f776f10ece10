import Verif.Lemmas.Timed
/-! Errors: only the limits, and a failed check of the model. -/
namespace Splr
open Stk

/-- Not an error (other than unsatisfiability). -/
def Res.Fine {α : Type} : Res α → Prop
  | .err => False
  | _ => True

theorem Res.Fine.bind {α β : Type} {r : Res α} {f : α → Res β} (h : r.Fine) (hf : ∀ a, (f a).Fine) : (r.bind f).Fine := by
  cases r with
  | ok a => exact hf a
  | err => exact h.elim
  | _ => trivial

theorem PRes.fine (r : PRes) : r.toRes.Fine := by cases r <;> trivial

theorem assignRootRes_fine (s : Stk) (db : Cdb) (l : Lit) : (s.assignRootRes db l).Fine := by
  unfold Stk.assignRootRes; split <;> trivial

theorem removeRes_fine (db : Cdb) (s : Stk) (i : Nat) : (db.removeRes s i).Fine := by
  unfold Cdb.removeRes; split <;> trivial

theorem simpOne_fine (x : DS) (i : Nat) : (simpOne x i).Fine := by
  unfold simpOne
  split
  · trivial
  · split
    · trivial
    · trivial
    · exact (assignRootRes_fine _ _ _).bind fun _ => removeRes_fine _ _ _
    · trivial

theorem simpPass_fine : ∀ (l : List Nat) (x : DS), (simpPass l x).Fine
  | [], _ => trivial
  | i :: l, x => (simpOne_fine x i).bind (simpPass_fine l)

theorem rootLoop_fine : ∀ (n np : Nat) (x : DS), (rootLoop n np x).Fine
  | 0, _, _ => trivial
  | n + 1, np, x => by
    unfold rootLoop
    split
    · exact (simpPass_fine _ _).bind (rootLoop_fine n _)
    · trivial

theorem propRemains_fine (x : DS) : (propRemains x).Fine := by
  unfold propRemains
  split
  · exact PRes.fine _
  · trivial

theorem clearLoop_fine : ∀ (n : Nat) (x : DS), (clearLoop n x).Fine
  | 0, _ => trivial
  | n + 1, x => by
    unfold clearLoop
    refine (propRemains_fine x).bind fun x1 => (rootLoop_fine _ _ x1).bind fun x2 => ?_
    split
    · exact (PRes.fine _).bind (clearLoop_fine n)
    · trivial

theorem clearAsserted_fine (x : DS) : (clearAsserted x).Fine := (clearLoop_fine _ x).bind fun _ => trivial

theorem vivApply_fine (x : DS) (i : Nat) (b : Bool) (v : Cls) : (vivApply x i b v).Fine := by
  unfold vivApply
  split
  · trivial
  · exact assignRootRes_fine _ _ _
  · split
    · trivial
    · exact removeRes_fine _ _ _

theorem vivOne_fine (x : DS) (i : Nat) : (vivOne x i).Fine := by
  unfold vivOne
  refine (propRemains_fine _).bind fun y => ?_
  split
  · trivial
  · split
    · trivial
    · trivial
    · trivial
    · split
      · trivial
      · trivial
      · split
        · trivial
        · exact vivApply_fine _ _ _ _

theorem vivLoop_fine : ∀ (l : List Nat) (x : DS), (vivLoop l x).Fine
  | [], _ => trivial
  | i :: l, x => (vivOne_fine x i).bind (vivLoop_fine l)

theorem vivify_fine (l : List Nat) (x : DS) : (vivify l x).Fine := by
  unfold vivify
  refine (propRemains_fine _).bind fun y => ?_
  split
  · trivial
  · exact (vivLoop_fine _ _).bind fun z => (propRemains_fine _).bind clearAsserted_fine

theorem linkLoop_fine (evo cnf : Nat) : ∀ (l : List Nat) (y : DS × El), (linkLoop evo cnf l y).Fine
  | [], _ => trivial
  | i :: l, y => by
    unfold linkLoop
    split
    · exact linkLoop_fine evo cnf l y
    · split
      · trivial
      · exact linkLoop_fine evo cnf l _

theorem prepare_fine (b : Bool) (evo cnf : Nat) (x : DS) : (prepare b evo cnf x).Fine := by
  unfold prepare
  split
  · trivial
  · refine (linkLoop_fine _ _ _ _).bind fun y => ?_
    split <;> trivial

theorem dropClause_fine (x : DS) (e : El) (i : Nat) : (dropClause x e i).Fine := (removeRes_fine _ _ _).bind fun _ => trivial

theorem strengthen_fine (x : DS) (e : El) (i : Nat) (l : Lit) : (strengthen x e i l).Fine := by
  unfold strengthen
  split
  · trivial
  · exact dropClause_fine _ _ _
  · refine (dropClause_fine _ _ _).bind fun y => ?_
    split
    · exact (assignRootRes_fine _ _ _).bind fun _ => trivial
    · trivial
    · trivial
  · trivial

theorem resolveOne_fine (evo v p n : Nat) (y : DS × El) : (resolveOne evo v p n y).Fine := by
  unfold resolveOne
  simp only []
  split
  · trivial
  · split
    · trivial
    · trivial
    · exact (assignRootRes_fine _ _ _).bind fun _ => trivial
  · split <;> trivial

theorem resolveAll_fine (evo v : Nat) : ∀ (l : List (Nat × Nat)) (y : DS × El), (resolveAll evo v l y).Fine
  | [], _ => trivial
  | (p, n) :: l, y => (resolveOne_fine evo v p n y).bind (resolveAll_fine evo v l)

theorem dropAll_fine : ∀ (l : List Nat) (y : DS × El), (dropAll l y).Fine
  | [], _ => trivial
  | i :: l, y => by
    unfold dropAll
    split
    · exact dropAll_fine l y
    · exact (dropClause_fine _ _ _).bind (dropAll_fine l)

theorem runCmd_fine (evo : Nat) (y : DS × El) (c : ECmd) : (runCmd evo y c).Fine := by
  cases c with
  | subsume i j =>
    simp only [runCmd, trySubsume]
    split
    · trivial
    · split
      · exact dropClause_fine _ _ _
      · trivial
  | lifted l j =>
    simp only [runCmd, tryLifted]
    split
    · trivial
    · split
      · exact strengthen_fine _ _ _ _
      · trivial
  | elimVar v =>
    simp only [runCmd, eliminateVar]
    split
    · trivial
    · exact (resolveAll_fine _ _ _ _).bind fun _ => (dropAll_fine _ _).bind fun _ => trivial
  | propagate => exact (PRes.fine _).bind fun _ => trivial
  | retain v sift => trivial

theorem runCmds_fine (evo : Nat) : ∀ (l : List ECmd) (y : DS × El), (runCmds evo l y).Fine
  | [], _ => trivial
  | c :: l, y => (runCmd_fine evo y c).bind (runCmds_fine evo l)

theorem simplify_fine (b : Bool) (evo : Nat) (l : List ECmd) (y : DS × El) : (simplify b evo l false y).Fine := by
  unfold simplify
  split
  · exact (runCmds_fine _ _ _).bind fun _ => trivial
  · exact (PRes.fine _).bind fun _ => trivial

theorem pureLoop_fine (cnf : Nat) (e : El) : ∀ (n v : Nat) (x : DS), (pureLoop cnf e n v x).Fine
  | 0, _, _ => trivial
  | n + 1, v, x => by
    unfold pureLoop
    split
    · exact pureLoop_fine cnf e n _ x
    split
    · trivial
    split
    · exact pureLoop_fine cnf e n _ x
    split
    · exact (assignRootRes_fine _ _ _).bind (pureLoop_fine cnf e n _)
    split
    · exact (assignRootRes_fine _ _ _).bind (pureLoop_fine cnf e n _)
    · exact pureLoop_fine cnf e n _ x

theorem Res.Fine.orOom {α : Type} {r : Res α} (h : r.Fine) : (r.orOom false).Fine := by
  cases r <;> exact h

theorem preprocess_fine (cfg : Cfg) {p : Pre} (h : p.oom = false) (h1 : p.oom1 = false) (h2 : p.oom2 = false) (x : Sol) : (preprocess cfg p x).Fine := by
  unfold preprocess
  rw [h, h1, h2]
  simp only [Bool.false_eq_true, if_false]
  refine (vivify_fine _ _).bind fun x1 => Res.Fine.bind (Res.Fine.orOom ((PRes.fine _).bind fun _ => trivial)) fun x2 => (prepare_fine _ _ _ _).bind fun y =>
    (pureLoop_fine _ _ _ _ _).bind fun x3 => Res.Fine.bind (Res.Fine.orOom (simplify_fine _ _ _ _)) fun _ => trivial

theorem stageStep_fine (cfg : Cfg) {o : StageOrc} (h : o.timeout = false) (h1 : o.oom = false) (low : Nat → Bool) (x : Sol) : (stageStep cfg o low x).Fine := by
  unfold stageStep
  rw [h]
  simp only [Bool.false_eq_true, if_false]
  refine (clearAsserted_fine _).bind fun x1 => Res.Fine.bind (r := x1.1.reduceRes x1.2 o.victims) (by unfold Cdb.reduceRes; split <;> trivial) fun x2 => Res.Fine.bind ?_ fun _ => trivial
  split
  · refine (vivify_fine _ _).bind fun x3 => ?_
    split
    · unfold segmentElim
      rw [h1]
      exact (prepare_fine _ _ _ _).bind fun _ => (simplify_fine _ _ _ _).bind fun _ => trivial
    · trivial
  · trivial

theorem searchStep_fine (cfg : Cfg) {o : Orc} (h : ∀ st, o.stage = some st → st.timeout = false ∧ st.oom = false) (x : Sol) : (searchStep cfg o x).Fine := by
  unfold searchStep
  split
  · trivial
  split
  · trivial
  · trivial
  · trivial
  split
  · trivial
  split
  · trivial
  · trivial
  unfold afterConflict
  split
  · rename_i st hst
    exact stageStep_fine _ (h st hst).1 (h st hst).2 _ _
  · trivial

theorem search_fine (cfg : Cfg) : ∀ {os : List Orc} (_ : ∀ o ∈ os, ∀ st, o.stage = some st → st.timeout = false ∧ st.oom = false) (x : Sol), (search cfg os x).Fine
  | [], _, _ => trivial
  | o :: os, h, x => by
    unfold search
    split
    · exact (searchStep_fine cfg (h o (by simp)) x).bind (search_fine cfg fun o ho => h o (by simp [ho]))
    · trivial

/-- At the end of the search the check of the model fails only if a clause is falsified. -/
theorem finish_err {F : Form} {nv : Nat} {low : Nat → Bool} {x : Sol} (h : SOK F nv x) (hr : x.s.running = false) (e : finish low x = .err) :
    ∃ i, (x.db.clause i).lits ≠ [] ∧ ∀ l ∈ (x.db.clause i).lits, x.s.tr l.neg := by
  obtain ⟨rfl⟩ := h.nvar
  obtain ⟨recs, g, hs⟩ := h.glob
  have h0 : x.s.unassigned = 0 := by
    unfold Stk.running at hr; simp at hr; exact hr.1
  obtain ⟨m, em, hag, hdef, hold⟩ := extendModel_spec g hs h0
  unfold finish at e
  rw [em] at e
  simp only [] at e
  cases hv : x.db.validate m false with
  | none =>
    rw [hv] at e
    simp only [] at e
    split at e <;> cases e
  | some c =>
    by_contra hcon
    push Not at hcon
    have : x.db.validate m false = none := by
      refine (validate_loose g.rinv.wf m).2 fun i hi => ?_
      obtain ⟨l, hl, hn⟩ := hcon i hi
      refine ⟨l, hl, ?_⟩
      obtain ⟨o1, o2, o3⟩ := g.dom.cl i l hl
      have ha : x.s.assign l.var ≠ none := by
        rcases all_assigned g.rinv.inv g.dom g.cnt h0 _ o1 o2 with h | h
        · exact h
        · rw [o3] at h; exact absurd h (by simp)
      rw [hold _ o3 ha]
      intro hh
      apply hn
      unfold Stk.tr
      rw [Lit.neg_var, hh]
      simp [Lit.neg]
    rw [this] at hv; cases hv

end Splr
