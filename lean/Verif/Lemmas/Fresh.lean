import Verif.Props.C52_Ends
import Verif.Props.C07_Propagation
import Mathlib.Data.Finset.Powerset
/-!
# Learnt clauses are new, and a stage is finite
-/
namespace Splr
open Stk
open scoped Classical

/-- The clause with the identifier `i` is watched at literals that are not in `Z`. -/
def Gd (Z : Lit → Prop) (db : Cdb) (i : Nat) : Prop := (db.clause i).lits ≠ [] ∧ ∀ w, W2 (db.clause i).lits w → ¬ Z w

/-- A conflict: a properly watched clause is not contained in the learnt one. -/
theorem not_sub_learnt {Z : Lit → Prop} {db : Cdb} {s : Stk} (hwf : db.WF) (hi : Inv db s) (hw : Wt (fun _ w => Z w ∨ s.dl ≤ s.level w.var) db s)
    {v : Cls} {lv : Nat} (hv : LearntOK db s v lv) {i : Nat} (hg : Gd Z db i) : ¬ ∀ x ∈ (db.clause i).lits, x ∈ v := by
  intro hsub
  obtain ⟨l0, rest, rfl, t0, e0, hr, -, -⟩ := hv.asserting
  have hf : ∀ x ∈ (db.clause i).lits, s.tr x.neg := fun x hx => by
    rcases List.mem_cons.1 (hsub x hx) with rfl | h
    · exact t0
    · exact (hr x h).1
  have key : ∀ w, W2 (db.clause i).lits w → w = l0 := by
    intro w w2
    have hm : w ∈ (db.clause i).lits := by rcases w2 with h | h <;> exact List.mem_of_getElem? h
    rcases List.mem_cons.1 (hsub w hm) with h | h
    · exact h
    have hlt := (hr w h).2.1
    have hdone : Done s w.neg := by
      refine ⟨hf w hm, fun hin => ?_⟩
      obtain ⟨j, hj, e⟩ := List.mem_iff_getElem.1 hin
      rw [List.getElem_drop] at e
      rw [List.length_drop] at hj
      have := level_pending hi hw.cur (i := s.qhead + j) (by omega) (p := w.neg) (by rw [← e]; exact List.getElem?_eq_getElem (by omega))
      rw [Lit.neg_var] at this
      omega
    obtain ⟨t, t1, t2, -⟩ := hw.wat i w w2 hdone (fun h => h.elim (hg.2 w w2) (by omega))
    exact absurd (hf t t1) (tr_not_neg t2)
  have h2l := hwf.len2 i hg.1
  match hl : (db.clause i).lits, h2l with
  | a :: b :: tl, _ =>
    have ha := key a (by rw [hl]; exact .inl rfl)
    have hb := key b (by rw [hl]; exact .inr rfl)
    have := Cdb.nodup_of_map_var (hwf.nd i)
    rw [hl, ha, hb] at this
    simp at this

/-- The watches that propagation chooses are not false. -/
theorem PStep.gd {Z : Lit → Prop} {db s db' s'} (st : PStep db s db' s') (hw : db.WF) (hz : ∀ w, Z w → s.tr w.neg) {i : Nat} (h : Gd Z db i) : Gd Z db' i := by
  cases st with
  | restore l idx op => unfold Gd; rw [(Cdb.same_restoreWatch db l idx op).1]; exact h
  | move p idx cid old k sf b lk other hii ho ha hb h2 hk hss hp ht hf =>
    obtain ⟨-, c1, -⟩ := Cdb.moveWatch_spec hw hii ho ha hb h2 hk hss
    unfold Gd
    rw [c1]
    by_cases e : i = cid
    · subst e
      rw [upd_same]
      have hlt : old < (db.clause i).lits.length := (List.getElem?_eq_some_iff.1 ha).1
      have e1 : (swapAt (db.clause i).lits old k)[old]? = some lk := by
        unfold swapAt; rw [ha, hk]; simp only []
        rw [List.getElem?_set_ne (by omega), List.getElem?_set_self hlt]
      have e2 : (swapAt (db.clause i).lits old k)[1 - old]? = some other := by
        unfold swapAt; rw [ha, hk]; simp only []
        rw [List.getElem?_set_ne (by omega), List.getElem?_set_ne (by omega)]; exact hb
      refine ⟨fun h0 => ?_, fun w w2 => ?_⟩
      · simp only [] at h0; rw [h0] at e1; simp at e1
      · simp only [] at w2
        rcases (W2.of_pos ho).1 w2 with h3 | h3
        · rw [e1] at h3; cases h3; exact fun hz' => hf (hz _ hz')
        · rw [e2] at h3; cases h3
          exact h.2 _ ((W2.of_pos ho).2 (.inr hb))
    · rw [upd_of_ne _ _ e]; exact h
  | swap cid l0 l1 l2 tl hl h0 =>
    by_cases e : i = cid
    · subst e
      have hx : ((db.swapWatch i).clause i).lits = l1 :: l0 :: l2 :: tl := by simp [Cdb.swapWatch, Cdb.setC, upd, hl, swapAt]
      refine ⟨by rw [hx]; simp, fun w w2 => ?_⟩
      rw [hx] at w2
      exact h.2 w (by rw [hl]; exact W2.iff.2 (W2.iff.1 w2).symm)
    · have hx : ((db.swapWatch cid).clause i) = db.clause i := by simp [Cdb.swapWatch, Cdb.setC, upd, e]
      unfold Gd; rw [hx]; exact h
  | _ => exact h

theorem PSteps.gd {Z : Lit → Prop} {db s db' s'} (st : PSteps db s db' s') (hw : db.WF) (hz : ∀ w, Z w → s.tr w.neg) {i : Nat} (h : Gd Z db i) : Gd Z db' i := by
  induction st with
  | refl => exact h
  | cons st _ ih => exact ih (st.db hw).1 (fun w hw => st.ext.tr _ (hz w hw)) (st.gd hw hz h)

theorem Gd.ofLits {Z : Lit → Prop} {db db' : Cdb} {i : Nat} (h : Gd Z db i) (e : (db'.clause i).lits = (db.clause i).lits) : Gd Z db' i := by
  unfold Gd; rw [e]; exact h

/-- What is learnt: a new clause, or one more fact. -/
theorem learnClause_gain {Z : Lit → Prop} {db : Cdb} {s : Stk} (h : PInv db s) (hz : ∀ w, Z w → Root s w.neg)
    (hw : Wt (fun _ w => Z w ∨ s.dl ≤ s.level w.var) db s) (hd : 0 < s.dl) {low : Nat → Bool} {drift : Bool} {v : Cls} {lv : Nat}
    (hv : LearntOK db s v lv) {db' : Cdb} {s' : Stk} (e : learnClause db s low drift v lv = .ok db' s') :
    (∃ i, Gd Z db' i ∧ ∀ j, Gd Z db j → ¬ ∀ x ∈ (db.clause j).lits, x ∈ (db'.clause i).lits) ∨ ∃ l, Root s' l ∧ s.level l.var ≠ 0 := by
  have hfr := fun j (hj : Gd Z db j) => not_sub_learnt h.wf h.inv hw hv hj
  obtain ⟨l0, rest, rfl, t0, e0, hr, -, hm⟩ := hv.asserting
  cases rest with
  | nil => simp [learnClause] at e
  | cons l1 tl =>
  have hlv1 := hm l1 tl rfl
  have hlt : lv < s.dl := by rw [← hlv1]; exact (hr l1 (by simp)).2.1
  have n0 : ¬ Z l0 := fun hz' => by have := (hz _ hz').2; rw [Lit.neg_var] at this; omega
  rcases Nat.eq_zero_or_pos lv with h0 | hpos
  · right
    subst h0
    unfold learnClause at e
    simp only [Nat.lt_irrefl, decide_false, Bool.and_false, Bool.false_and, Bool.false_eq_true, if_false] at e
    have key : ∀ rs, s' = (s.cancelUntil low 0).assignImpl l0 rs 0 → ∃ l, Root s' l ∧ s.level l.var ≠ 0 := by
      rintro rs rfl
      obtain ⟨f1, f2, -⟩ := assignImpl_fields (s.cancelUntil low 0) l0 rs 0
      refine ⟨l0, ⟨?_, by rw [f2, upd_same]⟩, by omega⟩
      unfold Stk.tr; rw [f1]; simp
    split at e
    · simp at e
    · cases e; exact key _ rfl
    · cases e; exact key _ rfl
    · simp at e
  · left
    have n1 : ¬ Z l1 := fun hz' => by have := (hz _ hz').2; rw [Lit.neg_var] at this; omega
    have key : ∀ {db1 rf} {level : Nat → Nat}, db.newClause level (l0 :: l1 :: tl) true = some (db1, rf) →
        ∃ i, Gd Z db1 i ∧ ∀ j, Gd Z db j → ¬ ∀ x ∈ (db.clause j).lits, x ∈ (db1.clause i).lits := by
      intro db1 rf level en
      obtain ⟨-, hs⟩ := Cdb.newClause_spec h.wf hv.nd en
      rcases hs with ⟨c', a, b, -, -, hab, hc⟩ | ⟨c', c, -, -, -, hold, hcl, -, -, -, -, hcc, -⟩
      · exfalso
        refine hfr c' ⟨?_, fun w w2 => ?_⟩ ?_
        · rcases hc with hc | hc <;> rw [hc] <;> simp
        · have : w = l0 ∨ w = l1 := by
            cases hab
            rcases hc with hc | hc <;> rw [hc] at w2
            · exact W2.iff.1 w2
            · exact (W2.iff.1 w2).symm
          rcases this with rfl | rfl
          · exact n0
          · exact n1
        · rw [hab]; rcases hc with hc | hc <;> rw [hc] <;> simp
      · have hx : (db1.clause c').lits = l0 :: l1 :: tl := by rw [hcc, upd_same, hcl]
        refine ⟨c', ⟨by rw [hx]; simp, fun w w2 => ?_⟩, fun j hj => by rw [hx]; exact hfr j hj⟩
        rw [hx] at w2
        rcases W2.iff.1 w2 with rfl | rfl
        · exact n0
        · exact n1
    unfold learnClause at e
    simp only [] at e
    split at e
    · simp at e
    · rename_i en
      split at e <;> cases e <;> exact key en
    · rename_i en
      split at e <;> cases e <;> exact key en
    · simp at e

theorem learnUnit_gain {db : Cdb} {s : Stk} (h : PInv db s) (hd : 0 < s.dl) {low : Nat → Bool} {l0 : Lit} (h0 : s.level l0.var = s.dl)
    {db' : Cdb} {s' : Stk} (e : learnUnit db s low l0 = .ok db' s') : ∃ l, Root s' l ∧ s.level l.var ≠ 0 := by
  unfold learnUnit at e
  split at e
  · simp at e
  split at e
  · simp at e
  obtain ⟨h1, h2, h3⟩ := h.inv.assignRoot low l0
  have n0 : (s.cancelUntil low 0).assign l0.var = none := by rw [cancelUntil_assign h.inv, if_neg (by omega)]
  split at e
  · rename_i s1 heq
    cases e
    rw [heq] at h1 h2 h3
    simp only [] at h1 h2 h3
    have ht : s'.tr l0 := by
      rcases h3 with ⟨-, -, e, -⟩ | ⟨ht, -⟩ | ⟨ht, -⟩
      · unfold Stk.tr; rw [e]; simp
      · exact absurd n0 (tr_assigned ht)
      · exact absurd n0 (by have := tr_assigned ht; rwa [Lit.neg_var] at this)
    exact ⟨l0, ⟨ht, Inv.level_root h1 h2 (tr_assigned ht)⟩, by omega⟩
  · simp at e

theorem handle_gain {Z : Lit → Prop} {db : Cdb} {s : Stk} (h : PInv db s) (hz : ∀ w, Z w → Root s w.neg) (hd : 0 < s.dl)
    (hw : Wt (fun _ w => Z w ∨ s.dl ≤ s.level w.var) db s) {low : Nat → Bool} {rr : Option Nat}
    {drift : Bool} {l : Lit} {r : Reason} (hc : ConfOK db s l r) {db' : Cdb} {s' : Stk} (e : handleConflict db s low rr drift l r = .ok db' s') :
    (∃ i, Gd Z db' i ∧ ∀ j, Gd Z db j → ¬ ∀ x ∈ (db.clause j).lits, x ∈ (db'.clause i).lits) ∨ ∃ l, Root s' l ∧ s.level l.var ≠ 0 := by
  have hlits := fun i => (rerankOne_lits db s.level rr i).1
  have hp1 : PInv (db.rerankOne s.level rr) s := h.grow (wf_rerankOne h.wf _ _) (fun i _ => hlits i)
  have hw1 : Wt (fun _ w => Z w ∨ s.dl ≤ s.level w.var) (db.rerankOne s.level rr) s := hw.dbEq hlits (by
    cases rr with
    | none => rfl
    | some c => simp only [Cdb.rerankOne]; split <;> rfl)
  unfold handleConflict at e
  split at e
  · simp at e
  split at e
  · simp at e
  · simp at e
  · rename_i l0 lv seen ea
    obtain ⟨l0', rest, e0, -, e1, -⟩ := (conflictAnalyze_spec h.wf h.inv hd hc ea).1.asserting
    cases e0
    exact .inr (learnUnit_gain hp1 hd e1 e)
  · rename_i v lv seen hn0 hn1 ea
    have hl := (conflictAnalyze_spec h.wf h.inv hd hc ea).1
    rcases learnClause_gain hp1 hz hw1 hd (hl.congr hlits) e with ⟨i, h1, h2⟩ | h
    · exact .inl ⟨i, h1, fun j hj => by rw [← hlits j]; exact h2 j (hj.ofLits (hlits j))⟩
    · exact .inr h

/-! ## counting -/

/-- All sets of literals over the variables 1 to `nv`. -/
def allSets (nv : Nat) : Finset (Finset Lit) := (((Finset.Icc 1 nv) ×ˢ (Finset.univ : Finset Bool)).image fun p => Lit.mk p.1 p.2).powerset

theorem card_allSets (nv : Nat) : (allSets nv).card ≤ 4 ^ nv := by
  unfold allSets
  rw [Finset.card_powerset]
  have h : (((Finset.Icc 1 nv) ×ˢ (Finset.univ : Finset Bool)).image fun p => Lit.mk p.1 p.2).card ≤ 2 * nv := by
    refine Finset.card_image_le.trans ?_
    simp; omega
  calc 2 ^ _ ≤ 2 ^ (2 * nv) := Nat.pow_le_pow_right (by omega) h
    _ = 4 ^ nv := by rw [pow_mul]; rfl

/-- The properly watched clauses, as sets of literals. -/
noncomputable def goodSets (Z : Lit → Prop) (nv : Nat) (db : Cdb) : Finset (Finset Lit) :=
  (allSets nv).filter fun c => ∃ i, Gd Z db i ∧ (db.clause i).lits.toFinset = c

/-- The variables with a value at the root level. -/
noncomputable def facts (nv : Nat) (s : Stk) : Finset Nat := (Finset.Icc 1 nv).filter fun v => ∃ b, Root s ⟨v, b⟩

theorem mem_goodSets {Z : Lit → Prop} {nv : Nat} {db : Cdb} {s : Stk} (hd : Dom db s) (hn : s.numVars = nv) {c : Finset Lit} :
    c ∈ goodSets Z nv db ↔ ∃ i, Gd Z db i ∧ (db.clause i).lits.toFinset = c := by
  unfold goodSets
  rw [Finset.mem_filter]
  refine ⟨fun h => h.2, fun h => ⟨?_, h⟩⟩
  obtain ⟨i, -, rfl⟩ := h
  unfold allSets
  rw [Finset.mem_powerset]
  intro l hl
  obtain ⟨a, b, -⟩ := hd.cl i l (List.mem_toFinset.1 hl)
  simp only [Finset.mem_image, Finset.mem_product, Finset.mem_Icc, Finset.mem_univ, and_true]
  exact ⟨(l.var, l.pos), ⟨a, by simp only []; omega⟩, rfl⟩

/-- How much has been found out. -/
noncomputable def gain (Z : Lit → Prop) (nv : Nat) (x : Sol) : Nat := (goodSets Z nv x.db).card + (facts nv x.s).card

theorem gain_le (Z : Lit → Prop) (nv : Nat) (x : Sol) : gain Z nv x ≤ 4 ^ nv + nv := by
  unfold gain
  have h1 : (goodSets Z nv x.db).card ≤ 4 ^ nv := (Finset.card_filter_le _ _).trans (card_allSets nv)
  have h2 : (facts nv x.s).card ≤ nv := (Finset.card_filter_le _ _).trans (by simp)
  omega

theorem facts_mono {nv : Nat} {s s' : Stk} (h : ∀ l, Root s l → Root s' l) : facts nv s ⊆ facts nv s' := by
  intro v hv
  unfold facts at *
  rw [Finset.mem_filter] at *
  obtain ⟨h1, b, hb⟩ := hv
  exact ⟨h1, b, h _ hb⟩

theorem goodSets_mono {Z : Lit → Prop} {nv : Nat} {db db' : Cdb} (h : ∀ i, Gd Z db i → Gd Z db' i ∧ (db'.clause i).lits.toFinset = (db.clause i).lits.toFinset) :
    goodSets Z nv db ⊆ goodSets Z nv db' := by
  intro c hc
  unfold goodSets at *
  rw [Finset.mem_filter] at *
  obtain ⟨h1, i, h2, h3⟩ := hc
  exact ⟨h1, i, (h i h2).1, (h i h2).2.trans h3⟩

theorem PSteps.goodSets {Z : Lit → Prop} {nv : Nat} {db s db' s'} (st : PSteps db s db' s') (hw : db.WF) (hz : ∀ w, Z w → s.tr w.neg) :
    Splr.goodSets Z nv db ⊆ Splr.goodSets Z nv db' :=
  goodSets_mono fun i hi => ⟨st.gd hw hz hi, List.toFinset_eq_of_perm _ _ ((st.same hw).perm i)⟩

theorem dl_le {db : Cdb} {s : Stk} (hi : Inv db s) (hd : Dom db s) : s.dl ≤ s.numVars := by
  refine Nat.le_trans ?_ (trail_le hi hd)
  have hn : s.lim.Nodup := hi.limInc.imp (fun h => Nat.ne_of_lt h)
  have := (List.subperm_of_subset hn (l₂ := List.range s.trail.length) fun k hk => List.mem_range.2 (hi.limLt k hk)).length_le
  simpa [Stk.dl] using this

theorem decideStep_dl {o : Orc} {s s' : Stk} (e : decideStep o s = some s') : s.remains = true ∧ s' = s ∨ s.remains = false ∧ s'.dl = s.dl + 1 := by
  unfold decideStep at e
  split at e
  · rename_i h; cases e; exact .inl ⟨h, rfl⟩
  · rename_i h
    refine .inr ⟨by simpa using h, ?_⟩
    split at e
    · cases e
    · rename_i v s1 hs
      cases e
      obtain ⟨-, -, -, -, h5⟩ := selectVar_fields hs
      simp [assignDecision, Stk.dl, h5]

/-- A handled conflict: something new is learnt. -/
theorem handled_gain {F : Form} {nv : Nat} {Z : Lit → Prop} {o : Orc} {x : Sol} (hs : SOK F nv x) (hw : Wt (fun _ w => Z w) x.db x.s)
    (hn : Nz Z x.db x.s) {s : Stk} (hd : decideStep o x.s = some s) {db : Cdb} {s1 : Stk} {l : Lit} {r : Reason}
    (hp : propagate o.q x.db s = .conflict db s1 l r) (h0 : s1.dl ≠ 0) {db2 : Cdb} {s2 : Stk}
    (hh : handleConflict db s1 o.low o.rr o.drift l r = .ok db2 s2) :
    RInv db2 s2 ∧ Wt (fun _ w => Z w) db2 s2 ∧ Nz Z db2 s2 ∧ gain Z nv x < gain Z nv { x with db := db2, s := s2 } := by
  obtain ⟨p1, t1, -⟩ := decideStep_spec (k := true) (r := false) hs.pinv hs.dom hd
  have w1 := decideStep_wt hs.pinv hw hd
  have n1 : Nz Z x.db s := hn.decideStep (fun l => t1.root l) hd
  have hg := propagate_good (q := o.q) p1
  have hpw := propagate_wtB (q := o.q) p1 w1
  rw [hp] at hg hpw
  obtain ⟨st, hco⟩ := hg
  have p2 := (st.all p1).1
  have n2 : Nz Z db s1 := st.nz p1.wf n1
  have t2 : Tr true false x.db x.s db s1 := t1.trans (st.trn p1.rinv)
  have hpos : 0 < s1.dl := by omega
  have hdm := t2.dom hs.dom
  have w3 := handle_wt p2 hpos hpw hco hh
  have n3 := n2.handle p2 hdm hpos hco hh
  have t3 := handle_tr p2 hdm hpos hco hh
  have hg := handleConflict_spec (low := o.low) (rr := o.rr) (drift := o.drift) p2 hpos hco
  rw [hh] at hg
  obtain ⟨v, lv0, seen, -, -, hok⟩ := hg
  have g3 := handle_gain p2 n2.root hpos hpw hco hh
  have hdm2 := t3.dom hdm
  have k1 : goodSets Z nv x.db ⊆ goodSets Z nv db := PSteps.goodSets st p1.wf fun w hw => (n1.root w hw).1
  have k2 : goodSets Z nv db ⊆ goodSets Z nv db2 := goodSets_mono fun i hi => by
    rcases hok.clauses i with h | h
    · exact ⟨hi.ofLits h.1, by rw [h.1]⟩
    · exact absurd h.1 hi.1
  have k3 : facts nv x.s ⊆ facts nv s1 := facts_mono t2.root
  have k4 : facts nv s1 ⊆ facts nv s2 := facts_mono t3.root
  have nv1 : s1.numVars = nv := t2.sp.numVars.trans hs.nvar
  have nv2 : s2.numVars = nv := t3.sp.numVars.trans nv1
  have main : (goodSets Z nv x.db).card + (facts nv x.s).card < (goodSets Z nv db2).card + (facts nv s2).card := by
    have c1 := Finset.card_le_card k1
    have c2 := Finset.card_le_card k2
    have c3 := Finset.card_le_card k3
    have c4 := Finset.card_le_card k4
    rcases g3 with ⟨i, g1, g2⟩ | ⟨m, m1, m2⟩
    · have : (goodSets Z nv db).card < (goodSets Z nv db2).card := Finset.card_lt_card (by
        refine (Finset.ssubset_iff_of_subset k2).2 ⟨(db2.clause i).lits.toFinset, (mem_goodSets hdm2 nv2).2 ⟨i, g1, rfl⟩, fun hc => ?_⟩
        obtain ⟨j, j1, j2⟩ := (mem_goodSets hdm nv1).1 hc
        refine g2 j j1 fun x hx => ?_
        rw [← List.mem_toFinset, ← j2, List.mem_toFinset]; exact hx)
      omega
    · have : (facts nv s1).card < (facts nv s2).card := Finset.card_lt_card (by
        refine (Finset.ssubset_iff_of_subset k4).2 ⟨m.var, ?_, fun hc => ?_⟩
        · unfold facts
          rw [Finset.mem_filter, Finset.mem_Icc]
          obtain ⟨a, b, -⟩ := hdm2.as m.var (tr_assigned m1.1)
          exact ⟨⟨a, by omega⟩, m.pos, m1⟩
        · unfold facts at hc
          rw [Finset.mem_filter] at hc
          obtain ⟨-, b, hb⟩ := hc
          exact m2 hb.2)
      omega
  exact ⟨hok.inv.rinv, w3, n3, main⟩

/-- One iteration within a stage: a level is added, or the pending literals are propagated, or something new is learnt. -/
theorem searchStep_gain {F : Form} {nv : Nat} {Z : Lit → Prop} {cfg : Cfg} {o : Orc} {x y : Sol} (hs : SOK F nv x) (hw : Wt (fun _ w => Z w) x.db x.s)
    (hn : Nz Z x.db x.s) (hst : o.stage = none) (e : searchStep cfg o x = .ok y) :
    SOK F nv y ∧ Wt (fun _ w => Z w) y.db y.s ∧ Nz Z y.db y.s ∧
    ((gain Z nv x ≤ gain Z nv y ∧ y.s.remains = false ∧ (x.s.remains = true ∧ y.s.dl = x.s.dl ∨ y.s.dl = x.s.dl + 1)) ∨ gain Z nv x < gain Z nv y) := by
  have hsy : SOK F nv y := by
    have := searchStep_spec (cfg := cfg) (o := o) hs
    rw [e] at this
    exact this
  refine ⟨hsy, ?_⟩
  unfold searchStep at e
  split at e
  · cases e
  rename_i s hd
  obtain ⟨p1, t1, -⟩ := decideStep_spec (k := true) (r := false) hs.pinv hs.dom hd
  have w1 := decideStep_wt hs.pinv hw hd
  have n1 : Nz Z x.db s := hn.decideStep (fun l => t1.root l) hd
  have hg := propagate_good (q := o.q) p1
  have hpw := propagate_wtB (q := o.q) p1 w1
  split at e
  · rename_i hp
    have hq := (propagate_complete p1 hp).2.2
    rw [hp] at hg hpw; cases e
    refine ⟨hpw, hg.nz p1.wf n1, .inl ⟨?_, by simp [Stk.remains]; omega, ?_⟩⟩
    · unfold gain
      have a1 := Finset.card_le_card (PSteps.goodSets (Z := Z) (nv := nv) hg p1.wf fun w hw => (n1.root w hw).1)
      have a2 := Finset.card_le_card (facts_mono (nv := nv) (t1.trans (hg.trn (k := true) (r := false) p1.rinv)).root)
      simp only []
      omega
    · have hl : ∀ {db' s'}, PSteps x.db s db' s' → s'.dl = s.dl := fun st => by unfold Stk.dl; rw [(st.all p1).2.2.lim]
      rcases decideStep_dl hd with ⟨a, rfl⟩ | ⟨-, a⟩
      · exact .inl ⟨a, hl hg⟩
      · exact .inr ((hl hg).trans a)
  · cases e
  · cases e
  rename_i db s1 l r hp
  split at e
  · cases e
  rename_i h0
  split at e
  · cases e
  · cases e
  rename_i db2 s2 hh
  obtain ⟨ri, w3, n3, main⟩ := handled_gain hs hw hn hd hp h0 hh
  unfold afterConflict at e
  rw [hst] at e
  simp only [] at e
  cases e
  split
  · refine ⟨w3.cancelUntil' ri.inv o.low2 0, n3.cancelUntil ri.inv o.low2 0, .inr ?_⟩
    have t4 : Tr true false db2 s2 db2 (s2.restart o.low2) := Tr.cancelUntil ri o.low2 0
    have c5 := Finset.card_le_card (facts_mono (nv := nv) t4.root)
    refine Nat.lt_of_lt_of_le main ?_
    unfold gain
    simp only []
    omega
  · exact ⟨w3, n3, .inr main⟩

/-- What is left to do, at most. -/
noncomputable def todo (Z : Lit → Prop) (nv : Nat) (x : Sol) : Nat :=
  (4 ^ nv + nv - gain Z nv x) * (nv + 2) + (nv - x.s.dl) + if x.s.remains then 1 else 0

theorem todo_le (Z : Lit → Prop) (nv : Nat) (x : Sol) : todo Z nv x ≤ (4 ^ nv + nv) * (nv + 2) + nv + 1 := by
  unfold todo
  have : (4 ^ nv + nv - gain Z nv x) * (nv + 2) ≤ (4 ^ nv + nv) * (nv + 2) := Nat.mul_le_mul_right _ (Nat.sub_le _ _)
  split <;> omega

theorem todo_step {F : Form} {nv : Nat} {Z : Lit → Prop} {cfg : Cfg} {o : Orc} {x y : Sol} (hs : SOK F nv x) (hw : Wt (fun _ w => Z w) x.db x.s)
    (hn : Nz Z x.db x.s) (hst : o.stage = none) (e : searchStep cfg o x = .ok y) : todo Z nv y < todo Z nv x := by
  obtain ⟨h1, -, -, h4⟩ := searchStep_gain hs hw hn hst e
  have hdl : y.s.dl ≤ nv := by have := dl_le h1.pinv.inv h1.dom; rw [h1.nvar] at this; exact this
  have hg := gain_le Z nv y
  unfold todo
  rcases h4 with ⟨a, b, c⟩ | a
  · have : (4 ^ nv + nv - gain Z nv y) * (nv + 2) ≤ (4 ^ nv + nv - gain Z nv x) * (nv + 2) := Nat.mul_le_mul_right _ (by omega)
    rw [b]
    rcases c with ⟨c1, c2⟩ | c
    · rw [c1, c2]; simp; omega
    · simp only [Bool.false_eq_true, if_false]
      split <;> omega
  · obtain ⟨k, hk⟩ : ∃ k, 4 ^ nv + nv - gain Z nv x = (4 ^ nv + nv - gain Z nv y) + 1 + k := ⟨gain Z nv y - gain Z nv x - 1, by omega⟩
    rw [hk, Nat.add_mul, Nat.add_mul]
    have : 0 ≤ k * (nv + 2) := Nat.zero_le _
    split <;> omega

/-- Within a stage the main loop ends. -/
theorem search_finite {F : Form} {nv : Nat} {Z : Lit → Prop} {cfg : Cfg} : ∀ {os : List Orc} {x y : Sol}, SOK F nv x → Wt (fun _ w => Z w) x.db x.s →
    Nz Z x.db x.s → (∀ o ∈ os, o.stage = none) → todo Z nv x < os.length → search cfg os x = .ok y → y.s.running = false
  | [], x, y, _, _, _, _, hl, _ => by simp at hl
  | o :: os, x, y, hs, hw, hn, ho, hl, e => by
    unfold search at e
    split at e
    · obtain ⟨z, e1, e2⟩ := Res.bind_ok e
      obtain ⟨a, b, c, -⟩ := searchStep_gain hs hw hn (ho o (by simp)) e1
      have := todo_step hs hw hn (ho o (by simp)) e1
      exact search_finite a b c (fun o h => ho o (by simp [h])) (by simp at hl; omega) e2
    · rename_i h
      cases e
      simpa using h

end Splr
