import Verif.Lemmas.BuildSpec
/-! The building API: `add_var`, `add_clause`, `add_assignment`, `inject_from_vec`. -/
namespace Splr
open Stk

theorem badLit_false {x : Sol} {i : Int} (h : x.badLit i = false) : i ≠ 0 ∧ i.natAbs ≤ x.s.numVars := by
  simpa [Sol.badLit] using h

theorem ofInt_range {x : Sol} {v : List Int} (h : v.any x.badLit = false) : ∀ l ∈ clsOf v, 1 ≤ l.var ∧ l.var ≤ x.s.numVars := by
  intro l hl
  obtain ⟨i, hi, rfl⟩ := List.mem_map.1 hl
  have hb : x.badLit i = false := by
    rw [List.any_eq_false] at h; simpa using h i hi
  obtain ⟨h1, h2⟩ := badLit_false hb
  show 1 ≤ i.natAbs ∧ i.natAbs ≤ _
  exact ⟨Int.natAbs_pos.2 h1, h2⟩

theorem addClause_spec {F : Form} {x : Sol} (h : BOK F x) (v : List Int) :
    ∃ y e, x.addClause v = some (y, e) ∧ y.cnf = x.cnf ∧ y.s.numVars = x.s.numVars ∧ (e = some .invalidLiteral ↔ v.any x.badLit = true) ∧
      (e = none → BOK (F ++ [clsOf v]) y) ∧ (e ≠ none → y = x) ∧
      (e = none ∨ e = some .invalidLiteral ∨ (e = some .emptyClause ∧ Refutation (F ++ [clsOf v]) (adds x.db.cert))) := by
  unfold Sol.addClause
  split
  · rename_i hb
    exact ⟨x, _, rfl, rfl, rfl, by simp [hb], by simp, fun _ => rfl, by simp⟩
  · rename_i hb
    have hb' : v.any x.badLit = false := by simpa using hb
    obtain ⟨y, rf, e, h1, h2, h3, h4⟩ := addUnchecked_spec h (ofInt_range hb')
    split
    · rename_i hv
      have hr : RefClause.emptyClause = rf ∧ x = y := by
        subst hv; simp [clsOf, Sol.addUnchecked] at e; exact ⟨e.2, e.1⟩
      exact ⟨x, _, rfl, rfl, rfl, by simp [hb'], by simp, fun _ => rfl, .inr (.inr ⟨rfl, (h4 hr.1.symm).2⟩)⟩
    · unfold clsOf at e
      rw [e]
      by_cases hr : rf = .emptyClause
      · subst hr
        exact ⟨y, _, rfl, h1, h2, by simp [hb'], by simp, fun _ => (h4 rfl).1, .inr (.inr ⟨rfl, (h4 rfl).2⟩)⟩
      · refine ⟨y, none, ?_, h1, h2, by simp [hb'], fun _ => h3 hr, by simp, .inl rfl⟩
        cases rf <;> first | rfl | exact absurd rfl hr

/-- A fact that is known already is added to the certificate. -/
theorem BOK.logKnown {F : Form} {x : Sol} (h : BOK F x) {l : Lit} (hr : Root x.s l) : BOK (F ++ [[l]]) { x with db := x.db.log (.add [l]) } := by
  have h0 := h.covered (c := [l]) (.inl ⟨l, by simp, hr⟩)
  refine ⟨⟨Cdb.wf_lits h0.rinv.wf (fun _ => ⟨rfl, rfl⟩) rfl rfl rfl rfl rfl, h0.rinv.inv.root_db h0.lim⟩, ⟨h0.dom.cl, h0.dom.as, h0.dom.hp, fun d hd => ?_, h0.dom.lv⟩, h0.cnt, fun D hD hr => ?_, ?_, h0.prim, ?_, h0.unl, h0.lim, h0.saved, h0.store, h0.elim, only_log h0.only, live_log h0.rinv.wf h0.live, fun D hD hr d hd => ?_⟩
  · simp only [adds_log_add, List.mem_append, List.mem_singleton] at hd
    rcases hd with hd | rfl
    · exact h0.dom.ct d hd
    · exact ⟨by simp, fun m hm => by
        rw [List.mem_singleton.1 hm]
        have := h.dom.as l.var (tr_assigned hr.1)
        exact ⟨this.1, this.2.1⟩⟩
  · rw [adds_log_add] at hr
    have := h0.mod D hD fun c hc => hr c (by rw [← List.append_assoc]; exact List.mem_append_left _ hc)
    exact ⟨this.cl, this.conf, this.root⟩
  · rw [adds_log_add]
    refine h0.cert.append (M' := fun D => Cons D ∧ Resp D [l]) (.one fun D hD hx => ?_) fun D hD _ => ⟨hD.1, hD.2 _ (by simp)⟩
    obtain ⟨y, hy, hn⟩ := hD.2.2
    exact hn (hx y hy)
  · intro c hc
    rw [adds_log_add, ← List.append_assoc] at hc
    rcases List.mem_append.1 hc with hc | hc
    · exact covered_same (db' := x.db.log (.add [l])) (fun _ _ => .rfl) (fun _ h => h) (h0.cov c hc)
    · simp at hc; subst hc; exact .inl ⟨l, by simp, hr⟩
  · simp only [adds_log_add, List.mem_append, List.mem_singleton] at hd
    rcases hd with hd | rfl
    · exact h0.ups D hD hr d hd
    · exact hr _ (by simp)

theorem addAssignment_spec {F : Form} {x : Sol} (h : BOK F x) (i : Int) :
    let r := x.addAssignment i
    r.1.cnf = x.cnf ∧ r.1.s.numVars = x.s.numVars ∧ (r.2 = some .invalidLiteral ↔ x.badLit i = true) ∧ (r.2 = some .invalidLiteral → r.1 = x) ∧
      (r.2 = none → BOK (F ++ [[Lit.ofInt i]]) r.1) ∧
      (r.2 = none ∨ r.2 = some .invalidLiteral ∨ (r.2 = some .rootConflict ∧ Refutation (F ++ [[Lit.ofInt i]]) (adds r.1.db.cert))) := by
  intro r
  have hr : r = x.addAssignment i := rfl
  clear_value r
  unfold Sol.addAssignment at hr
  split at hr
  · rename_i hb; subst hr
    exact ⟨rfl, rfl, by simp [hb], by simp, by simp, by simp⟩
  · rename_i hb
    have hb' : x.badLit i = false := by simpa using hb
    have hrg := ofInt_range (x := x) (v := [i]) (by simp [hb']) (Lit.ofInt i) (by simp [clsOf])
    simp only [] at hr
    split at hr
    · rename_i hn
      obtain ⟨s', e, hb2, -, hnv⟩ := h.unit (c := [Lit.ofInt i]) (l := Lit.ofInt i) (by simp) (by simp) (val_none.1 hn) hrg
      rw [e] at hr; subst hr
      exact ⟨rfl, hnv, by simp [hb'], by simp, fun _ => hb2, .inl rfl⟩
    · rename_i hn; subst hr
      have ht := val_true.1 hn
      exact ⟨rfl, rfl, by simp [hb'], by simp, fun _ => h.logKnown ⟨ht, h.rinv.inv.level_root h.lim (tr_assigned ht)⟩, .inl rfl⟩
    · rename_i hn; subst hr
      refine ⟨rfl, rfl, by simp [hb'], by simp, by simp, .inr (.inr ⟨rfl, ?_⟩)⟩
      have ht := val_false.1 hn
      have hroot : Root x.s (Lit.ofInt i).neg := ⟨ht, h.rinv.inv.level_root h.lim (tr_assigned ht)⟩
      refine .of_false ?_ fun D hD hr => ?_
      · rw [adds_log_add]
        intro pre c post e
        have hch : Chain (fun D => Cons D ∧ ∀ c ∈ F ++ [[Lit.ofInt i]], Resp D c) (adds x.db.cert ++ [[Lit.ofInt i]]) :=
          (h.cert.mono fun D hD => ⟨hD.1, fun d hd => hD.2 d (by simp [hd])⟩).append (M' := fun D => Resp D [Lit.ofInt i])
            (.one fun D hD hx => by obtain ⟨y, hy, hn⟩ := hD.2; exact hn (hx y hy)) fun D hD _ => hD.2 _ (by simp)
        exact .inl (rup_of_no_closed fun D hD hr hx => hch pre c post e D ⟨hD, fun a ha => hr a (List.mem_append_left _ ha)⟩ (fun a ha => hr a (List.mem_append_right _ ha)) hx)
      · have h0 := h.mod D hD fun d hd => hr d (by
          rw [adds_log_add]; rcases List.mem_append.1 hd with hd | hd <;> simp [hd])
        have h1 := h0.root _ hroot.1 hroot.2
        obtain ⟨y, hy, hn⟩ := (hr [Lit.ofInt i] (by simp)).2
        simp at hy; subst hy
        exact hn h1

/-- The outcome of `inject_from_vec`. -/
theorem inject_spec : ∀ {v : List (List Int)} {F : Form} {x : Sol}, BOK F x →
    ∃ y e, x.inject v = some (y, e) ∧ y.cnf = x.cnf ∧ y.s.numVars = x.s.numVars ∧
      (e = none ∧ BOK (F ++ v.map clsOf) y ∨ e = some .invalidLiteral ∧ (∃ c ∈ v, c.any x.badLit = true) ∨
        e = some .emptyClause ∧ ∃ pre c post, v = pre ++ c :: post ∧ Refutation (F ++ (pre ++ [c]).map clsOf) (adds y.db.cert))
  | [], F, x, h => ⟨x, none, rfl, rfl, rfl, .inl ⟨rfl, by simpa using h⟩⟩
  | c :: cs, F, x, h => by
    unfold Sol.inject
    split
    · rename_i hb
      exact ⟨x, _, rfl, rfl, rfl, .inr (.inl ⟨rfl, c, by simp, hb⟩)⟩
    · rename_i hb
      have hb' : c.any x.badLit = false := by simpa using hb
      obtain ⟨y, rf, e, h1, h2, h3, h4⟩ := addUnchecked_spec h (ofInt_range hb')
      unfold clsOf at e
      rw [e]
      by_cases hr : rf = .emptyClause
      · subst hr
        obtain ⟨rfl, hr⟩ := h4 rfl
        exact ⟨y, _, rfl, rfl, rfl, .inr (.inr ⟨rfl, [], c, cs, rfl, by simpa using hr⟩)⟩
      · obtain ⟨z, e2, hz, z1, z2, hcase⟩ := inject_spec (v := cs) (h3 hr)
        refine ⟨z, e2, ?_, z1.trans h1, z2.trans h2, ?_⟩
        · cases rf <;> first | exact hz | exact absurd rfl hr
        · rcases hcase with ⟨rfl, hk⟩ | ⟨rfl, d, hd, hk⟩ | ⟨rfl, pre, d, post, rfl, hk⟩
          · exact .inl ⟨rfl, by simpa using hk⟩
          · refine .inr (.inl ⟨rfl, d, by simp [hd], ?_⟩)
            have : y.badLit = x.badLit := by funext j; unfold Sol.badLit; rw [h2]
            rw [← this]; exact hk
          · exact .inr (.inr ⟨rfl, c :: pre, d, post, rfl, by simpa using hk⟩)

theorem le_foldr_max : ∀ {l : List Nat} {a : Nat}, a ∈ l → a ≤ l.foldr max 0
  | b :: l, a, h => by
    rcases List.mem_cons.1 h with rfl | h
    · exact Nat.le_max_left _ _
    · exact Nat.le_trans (le_foldr_max h) (Nat.le_max_right _ _)

theorem le_vecVars {v : List (List Int)} {c : List Int} (hc : c ∈ v) {i : Int} (hi : i ∈ c) : i.natAbs ≤ vecVars v :=
  Nat.le_trans (le_foldr_max (List.mem_map.2 ⟨i, hi, rfl⟩)) (le_foldr_max (List.mem_map.2 ⟨c, hc, rfl⟩))

/-- The outcome of `Solver::try_from((config, vec))`. -/
theorem tryFrom_spec (v : List (List Int)) : ∃ y e, Sol.tryFrom v = some (y, e) ∧ y.cnf = vecVars v ∧ y.s.numVars = vecVars v ∧
    (e = none ∧ BOK (v.map clsOf) y ∨ e = some .invalidLiteral ∧ (∃ c ∈ v, (0 : Int) ∈ c) ∨
      e = some .emptyClause ∧ ∃ pre c post, v = pre ++ c :: post ∧ Refutation ((pre ++ [c]).map clsOf) (adds y.db.cert)) := by
  obtain ⟨y, e, h1, h2, h3, h4⟩ := inject_spec (v := v) (bok_new (vecVars v))
  refine ⟨y, e, h1, h2, h3, ?_⟩
  rcases h4 with h | ⟨he, c, hc, hb⟩ | ⟨he, h⟩
  · exact .inl (by simpa using h)
  · refine .inr (.inl ⟨he, c, hc, ?_⟩)
    obtain ⟨i, hi, hb⟩ := List.any_eq_true.1 hb
    have := le_vecVars hc hi
    simp only [Sol.badLit, Sol.new, Stk.new, Bool.or_eq_true, decide_eq_true_eq] at hb
    rcases hb with rfl | hb
    · exact hi
    · exact absurd (show i.natAbs ≤ vecVars v from this) (Nat.not_le.2 (of_decide_eq_true hb))
  · exact .inr (.inr ⟨he, by simpa using h⟩)

end Splr
