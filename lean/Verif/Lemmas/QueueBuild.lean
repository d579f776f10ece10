import Verif.Lemmas.QueueSolve
import Verif.Model.QueueReach
/-! # The array queue: the API -/
namespace Splr
open Stk QStk

/-- The results of a function of the API agree. -/
inductive FRel {α : Type} : Option (Sol × α) → Option (SolQ × α) → Prop
  | some {y : Sol} {x : SolQ} {a : α} (h : SolRel y x) : FRel (some (y, a)) (some (x, a))
  | none : FRel none none

theorem addUnchecked_sim {y : Sol} {x : SolQ} (hx : SolRel y x) (hd : Dom y.db y.s) {c : Cls} (hc : ∀ l ∈ c, 1 ≤ l.var ∧ l.var ≤ y.s.numVars) :
    FRel (y.addUnchecked c) (x.addUnchecked c) := by
  have e1 : x.x.s.val = y.s.val := by rw [← hx.rel.same]; rfl
  have e2 : x.x.s.level = y.s.level := by rw [← hx.rel.same]
  unfold Sol.addUnchecked SolQ.addUnchecked
  split
  · exact .some hx
  rw [okLits_of hx.rel hc, e1, e2]
  simp only [if_true]
  cases hn : normLits y.s.val (sortLits c) none with
  | none => exact .some hx
  | some v =>
    have hv : ∀ l ∈ v, 1 ≤ l.var ∧ l.var ≤ y.s.numVars := by
      intro l hl
      have hs := normLits_some (ls := sortLits c) (last := none) (v := v) (sortLits_sorted c) (by simp) hn
      exact hc l (sortLits_mem.1 (hs.1 l hl).1)
    match v, hv with
    | [], _ => exact .some hx
    | [l], hv =>
      simp only []
      obtain ⟨x', e, h'⟩ := hx.rel.assignRoot noLow (hv l (by simp))
      rw [e, hx.db]
      generalize y.s.assignRoot noLow l = z at *
      obtain ⟨s1, b⟩ := z
      cases b with
      | true => exact .some ⟨rfl, h', hx.store, hx.cnf⟩
      | false => exact .some ⟨rfl, h', hx.store, hx.cnf⟩
    | a :: b :: tl, hv =>
      simp only []
      rw [okRank_of hx.rel hv hd.lv, if_pos rfl, hx.db]
      cases y.db.newClause y.s.level (a :: b :: tl) false with
      | none => exact .none
      | some w => exact .some ⟨rfl, hx.rel, hx.store, hx.cnf⟩

theorem badLit_sim {y : Sol} {x : SolQ} (hx : SolRel y x) : x.badLit = y.badLit := by
  funext i
  unfold SolQ.badLit Sol.badLit
  rw [← hx.rel.same]

theorem ofInt_range1 {y : Sol} {i : Int} (h : y.badLit i = false) : 1 ≤ (Lit.ofInt i).var ∧ (Lit.ofInt i).var ≤ y.s.numVars := by
  exact ofInt_range (x := y) (v := [i]) (by simp [h]) (Lit.ofInt i) (by simp [clsOf])

theorem addClause_sim {y : Sol} {x : SolQ} (hx : SolRel y x) (hd : Dom y.db y.s) (v : List Int) : FRel (y.addClause v) (x.addClause v) := by
  unfold Sol.addClause SolQ.addClause
  rw [badLit_sim hx]
  split
  · exact .some hx
  rename_i hb
  split
  · exact .some hx
  have hc : ∀ l ∈ v.map Lit.ofInt, 1 ≤ l.var ∧ l.var ≤ y.s.numVars := by
    intro l hl
    obtain ⟨i, hi, rfl⟩ := List.mem_map.1 hl
    refine ofInt_range1 ?_
    cases h : y.badLit i with
    | false => rfl
    | true => exact absurd (List.any_eq_true.2 ⟨i, hi, h⟩) hb
  have := addUnchecked_sim hx hd hc
  revert this
  generalize y.addUnchecked (v.map Lit.ofInt) = r
  generalize x.addUnchecked (v.map Lit.ofInt) = r'
  intro h
  cases h with
  | none => exact .none
  | @some y1 x1 rf h => cases rf <;> exact .some h

theorem addAssignment_sim {y : Sol} {x : SolQ} (hx : SolRel y x) (i : Int) : FRel (some (y.addAssignment i)) (x.addAssignment i) := by
  have e1 : x.x.s.val = y.s.val := by rw [← hx.rel.same]; rfl
  unfold Sol.addAssignment SolQ.addAssignment
  rw [badLit_sim hx]
  split
  · exact .some hx
  rename_i hb
  have hl := ofInt_range1 (by simpa using hb)
  simp only []
  rw [okV_of hx.rel hl, if_pos rfl, e1, hx.db]
  cases y.s.val (Lit.ofInt i) with
  | none =>
    simp only []
    obtain ⟨x', e, h'⟩ := hx.rel.assignRoot noLow hl
    rw [e]
    generalize y.s.assignRoot noLow (Lit.ofInt i) = z at *
    obtain ⟨s1, b⟩ := z
    cases b with
    | true => exact .some ⟨rfl, h', hx.store, hx.cnf⟩
    | false => exact .some ⟨rfl, h', hx.store, hx.cnf⟩
  | some b =>
    cases b with
    | true => exact .some ⟨rfl, hx.rel, hx.store, hx.cnf⟩
    | false => exact .some ⟨rfl, hx.rel, hx.store, hx.cnf⟩

theorem FRel.inv {α : Type} {r : Option (Sol × α)} {x : SolQ} {a : α} (h : FRel r (Option.some (x, a))) : ∃ y, r = Option.some (y, a) ∧ SolRel y x := by
  cases h with
  | some h => exact ⟨_, rfl, h⟩

/-- Every solver with the array queue has a counterpart with a set of queued variables. -/
theorem BuiltQ.sim {F : Form} {x : SolQ} (h : BuiltQ F x) : ∃ y, Built F y ∧ SolRel y x := by
  induction h with
  | new nv act => exact ⟨_, .new nv, rfl, QRel.new nv act, rfl, rfl⟩
  | addVar h ih => obtain ⟨y, hy, hr⟩ := ih; exact ⟨_, .addVar hy, hr.db, hr.rel.newVar, hr.store, hr.cnf⟩
  | @addClause F x x' v h e ih =>
    obtain ⟨y, hy, hr⟩ := ih
    have := addClause_sim hr hy.bok.1.dom v
    rw [e] at this
    obtain ⟨y', e', h'⟩ := this.inv
    exact ⟨y', .addClause hy e', h'⟩
  | @rejected F x x' v err h e ih =>
    obtain ⟨y, hy, hr⟩ := ih
    have := addClause_sim hr hy.bok.1.dom v
    rw [e] at this
    obtain ⟨y', e', h'⟩ := this.inv
    exact ⟨y', .rejected hy e', h'⟩
  | @addAssignment F x x' i h e ih =>
    obtain ⟨y, hy, hr⟩ := ih
    have := addAssignment_sim hr i
    rw [e] at this
    obtain ⟨y', e', h'⟩ := this.inv
    exact ⟨y', .addAssignment hy (Option.some.inj e'), h'⟩
  | @rejectedAssignment F x x' i h e ih =>
    obtain ⟨y, hy, hr⟩ := ih
    have := addAssignment_sim hr i
    rw [e] at this
    obtain ⟨y', e', h'⟩ := this.inv
    exact ⟨y', .rejectedAssignment hy (Option.some.inj e'), h'⟩
  | @line F x x' c r h hc e hne ih =>
    obtain ⟨y, hy, hr⟩ := ih
    have hn : x.x.s.numVars = y.s.numVars := by rw [← hr.rel.same]
    rw [hn] at hc
    have := addUnchecked_sim hr hy.bok.1.dom (c := clsOf c) (by
      intro l hl
      obtain ⟨i, hi, rfl⟩ := List.mem_map.1 hl
      have := hc i hi
      refine ofInt_range1 (y := y) ?_
      simp [Sol.badLit, this.1, this.2])
    rw [e] at this
    obtain ⟨y', e', h'⟩ := this.inv
    exact ⟨y', .line hy hc e' hne, h'⟩

theorem RRel.inv {α β : Type} {R : α → β → Prop} {r : Res α} {b : β} (h : RRel R r (.ok b)) : ∃ a, r = .ok a ∧ R a b := by
  cases h with
  | ok h => exact ⟨_, rfl, h⟩

theorem HeadQ.sim {cfg : Cfg} {F : Form} {x : SolQ} (h : HeadQ cfg F x) : ∃ y, Head cfg F y ∧ SolRel y x := by
  induction h with
  | @start x x' p h e =>
    obtain ⟨y, hy, hr⟩ := h.sim
    have := preprocess_sim (cfg := cfg) (o := p) hr hy
    rw [e] at this
    obtain ⟨y', e', h'⟩ := this.inv
    exact ⟨y', .start hy e', h'⟩
  | @step x x' o h hrun e ih =>
    obtain ⟨y, hy, hr⟩ := ih
    have e1 : x.x.s.running = y.s.running := by rw [← hr.rel.same]; rfl
    rw [e1] at hrun
    obtain ⟨pick, this⟩ := searchStep_sim hy hrun hr o
    rw [e] at this
    obtain ⟨y', e', h'⟩ := this.inv
    exact ⟨y', .step hy hrun e', h'⟩

end Splr
