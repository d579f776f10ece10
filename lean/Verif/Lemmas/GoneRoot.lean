import Verif.Lemmas.Gone
import Verif.Lemmas.ElimMain
/-! Cleared variables: preprocessing, inprocessing and search. -/
namespace Splr
open Stk

/-! ## the root level -/

/-- What holds in the states of preprocessing and inprocessing. -/
structure KA (x : DS) : Prop where
  rinv : RInv x.1 x.2
  dom : Dom x.1 x.2
  ac : AC x.1 x.2

theorem KA.ofRG {k r : Bool} {x y : DS} {Q : DS → Prop} {res : Res DS} (h : KA x) (hg : RG k r x.1 x.2 id Q res) (e : res = .ok y) (hw : AC y.1 y.2) : KA y ∧ Q y := by
  subst e
  exact ⟨⟨hg.1.rinv, hg.1.dom h.dom, hw⟩, hg.2⟩

theorem ac_propagate {x y : DS} (hi : RInv x.1 x.2) (h : AC x.1 x.2) (e : (propagateSandbox x.1 x.2).toRes = .ok y) : AC y.1 y.2 := by
  have hg := propagateSandbox_good hi
  cases hp : propagateSandbox x.1 x.2 with
  | ok db s => rw [hp] at e hg; cases e; exact AC.psteps hg hi.wf h
  | _ => rw [hp] at e; simp [PRes.toRes] at e

theorem ka_propagate {x y : DS} (h : KA x) (hl : x.2.lim = []) (e : (propagateSandbox x.1 x.2).toRes = .ok y) : KA y ∧ y.2.lim = [] :=
  h.ofRG (rg_propagate (k := true) (r := true) h.rinv hl) e (ac_propagate h.rinv h.ac e)

theorem ka_propRemains {x y : DS} (h : KA x) (hl : x.2.lim = []) (e : propRemains x = .ok y) : KA y ∧ y.2.lim = [] := by
  unfold propRemains at e
  split at e
  · exact ka_propagate h hl e
  · cases e; exact ⟨h, hl⟩

theorem removeRes_shr {db : Cdb} {s : Stk} {cid : Nat} {y : DS} (e : db.removeRes s cid = .ok y) : Shr db y.1 ∧ y.2 = s := by
  obtain ⟨h1, h2⟩ := removeRes_ok e
  exact ⟨fun i l hl => removeClause_lits h1 i l hl, h2⟩

theorem transformBySimplification_keep {db db' : Cdb} {asg : Nat → Option Bool} {elim : Nat → Bool} {cid i : Nat}
    (e : db.transformBySimplification asg elim cid = some (db', .clause i)) : ∀ l ∈ (db'.clause cid).lits, asg l.var = none := by
  have hf : ∀ l : Lit, (litVal asg l == none && !elim l.var) = true → asg l.var = none := by
    intro l h
    simp only [Bool.and_eq_true, beq_iff_eq] at h
    exact litVal_none.1 h.1
  unfold Cdb.transformBySimplification at e
  split at e
  · cases hr : db.removeClause cid with
    | none => rw [hr] at e; simp at e
    | some d => rw [hr] at e; simp at e
  split at e
  · rename_i ha
    simp only [Option.some.injEq, Prod.mk.injEq] at e
    rw [← e.1]
    intro l hl
    exact hf l (List.all_eq_true.1 ha l hl)
  have key : ∀ c : Cls, (db.clause cid).lits.filter (fun l => litVal asg l == none && !elim l.var) = c → (db'.clause cid).lits = c → ∀ l ∈ (db'.clause cid).lits, asg l.var = none := by
    intro c h1 h2 l hl
    rw [h2, ← h1] at hl
    exact hf l (List.mem_filter.1 hl).2
  split at e
  · simp at e
  · simp at e
  · rename_i l0 l1 o0 o1 _ h1 h2
    split at e
    · cases hr : db.removeClause cid with
      | none => rw [hr] at e; simp at e
      | some d => rw [hr] at e; simp at e
    · simp only [Option.some.injEq, Prod.mk.injEq] at e
      refine key _ h1 ?_
      rw [← e.1]
      simp [Cdb.log, Cdb.setC]
  · rename_i n0 n1 nt o0 o1 _ _ h1 h2
    simp only [Option.some.injEq, Prod.mk.injEq] at e
    refine key _ h1 ?_
    rw [← e.1]
    simp [Cdb.log, Cdb.setC]
  · simp at e

/-- One clause is looked at: clauses become shorter; if nothing is asserted, its literals are unassigned. -/
theorem simpOne_shr {x y : DS} {cid : Nat} (hi : RInv x.1 x.2) (hl : x.2.lim = []) (e : simpOne x cid = .ok y) :
    Shr x.1 y.1 ∧ (∀ v, Gone y.2 v → Gone x.2 v) ∧ x.2.trail.length ≤ y.2.trail.length ∧
      (y.2.trail.length = x.2.trail.length → y.2 = x.2 ∧ ∀ l ∈ (y.1.clause cid).lits, y.2.assign l.var = none) := by
  obtain ⟨db, s⟩ := x
  simp only [] at hi hl
  unfold simpOne at e
  simp only [] at e
  split at e
  · rename_i hd
    cases e
    refine ⟨.refl _, fun _ h => h, Nat.le_refl _, fun _ => ⟨rfl, ?_⟩⟩
    have : (db.clause cid).lits = [] := by simpa [Cl.dead] using hd
    simp [this]
  rename_i hdead
  have hne : (db.clause cid).lits ≠ [] := by simpa [Cl.dead] using hdead
  obtain ⟨db', rf, e', w, out, hk, -⟩ := Cdb.transformBySimplification_spec (asg := s.assign) (elim := s.elim) hi.wf hne
  rw [e'] at e
  have shr : (∀ l ∈ (db'.clause cid).lits, l ∈ (db.clause cid).lits) → Shr db db' := by
    intro h i l hl
    by_cases hic : i = cid
    · subst hic; exact h l hl
    · rw [hk i hic] at hl; exact hl
  have gone : (db'.clause cid).lits = [] → y = (db', s) → Shr db y.1 ∧ (∀ v, Gone y.2 v → Gone s v) ∧ s.trail.length ≤ y.2.trail.length ∧
      (y.2.trail.length = s.trail.length → y.2 = s ∧ ∀ l ∈ (y.1.clause cid).lits, y.2.assign l.var = none) := by
    rintro h0 rfl
    exact ⟨shr (by simp [h0]), fun _ h => h, Nat.le_refl _, fun _ => ⟨rfl, by simp [h0]⟩⟩
  cases out with
  | dead h1 h' hc => cases e; exact gone h' rfl
  | same h' => cases e; subst h'; exact ⟨.refl _, fun _ h => h, Nat.le_refl _, fun _ => ⟨rfl, transformBySimplification_keep e'⟩⟩
  | empty h1 h' => simp at e
  | unit l h1 h' =>
    subst h'
    simp only [] at e
    obtain ⟨a, e1, e2⟩ := Res.bind_ok e
    obtain ⟨b1, b2⟩ := removeRes_shr e2
    have hd := assignRootRes_db e1
    rw [hd] at b1
    have hn : s.assign l.var = none := by
      have : l ∈ (db'.clause cid).lits.filter (fun l => litVal s.assign l == none && !s.elim l.var) := by rw [h1]; simp
      simp only [List.mem_filter, Bool.and_eq_true, beq_iff_eq] at this
      exact litVal_none.1 this.2.1
    have hlen : a.2.trail.length = s.trail.length + 1 := by
      have hc0 : s.cancelUntil noLow 0 = s := cancelUntil_noop (by unfold Stk.dl; rw [hl]; simp)
      unfold Stk.assignRootRes Stk.assignRoot at e1
      simp only [hc0, hn] at e1
      cases e1
      simp [makeAsserted]
    rw [b2]
    exact ⟨b1, fun v hv => gone_assignRootRes e1 hv, by simp only []; omega, by simp only []; omega⟩
  | registered bid a b h1 hb hr h' hc => cases e; exact gone h' rfl
  | shorter h1 hh hlt hlr hc =>
    cases e
    refine ⟨shr (by rw [hh]; exact fun l hl => (List.mem_filter.1 hl).1), fun _ h => h, Nat.le_refl _, fun _ => ⟨rfl, transformBySimplification_keep e'⟩⟩

theorem ka_simpOne {x y : DS} {cid : Nat} (h : KA x) (hl : x.2.lim = []) (e : simpOne x cid = .ok y) : KA y ∧ y.2.lim = [] := by
  obtain ⟨h1, h2, -, -⟩ := simpOne_shr h.rinv hl e
  exact h.ofRG (rg_simpOne (r := true) h.rinv hl h.dom) e (h.ac.step (fun _ => InCls.shr h1) h2)

theorem ka_simpPass : ∀ {cids : List Nat} {x y : DS}, KA x → x.2.lim = [] → simpPass cids x = .ok y →
    KA y ∧ y.2.lim = [] ∧ Shr x.1 y.1 ∧ x.2.trail.length ≤ y.2.trail.length ∧
      (y.2.trail.length = x.2.trail.length → y.2 = x.2 ∧ ∀ c ∈ cids, ∀ l ∈ (y.1.clause c).lits, y.2.assign l.var = none)
  | [], x, y, h, hl, e => by unfold simpPass at e; cases e; exact ⟨h, hl, .refl _, Nat.le_refl _, fun _ => ⟨rfl, by simp⟩⟩
  | cid :: cids, x, y, h, hl, e => by
    unfold simpPass at e
    obtain ⟨a, e1, e2⟩ := Res.bind_ok e
    obtain ⟨s1, -, s3, s4⟩ := simpOne_shr h.rinv hl e1
    have ha := ka_simpOne h hl e1
    obtain ⟨r1, r2, r3, r4, r5⟩ := ka_simpPass ha.1 ha.2 e2
    refine ⟨r1, r2, s1.trans r3, s3.trans r4, fun hlen => ?_⟩
    obtain ⟨t1, t2⟩ := r5 (by omega)
    obtain ⟨u1, u2⟩ := s4 (by omega)
    refine ⟨t1.trans u1, fun c hc l hl => ?_⟩
    rcases List.mem_cons.1 hc with rfl | hc
    · rw [t1]; exact u2 l (r3 c l hl)
    · exact t2 c hc l hl

theorem InCls.ids {db : Cdb} (hw : db.WF) {v : Nat} (h : InCls db v) : ∃ c ∈ db.ids, ∃ y ∈ (db.clause c).lits, y.var = v := by
  obtain ⟨i, y, h1, h2⟩ := h
  exact ⟨i, mem_ids hw (List.ne_nil_of_mem h1), y, h1, h2⟩

theorem ka_rootLoop : ∀ {n np : Nat} {x y : DS}, KA x → x.2.lim = [] → (np = 0 ∨ x.2.trail.length ≤ np → np = 0 ∨ Spotless x.1 x.2) → rootLoop n np x = .ok y →
    KA y ∧ y.2.lim = [] ∧ (y.2.trail = [] ∨ Spotless y.1 y.2)
  | 0, _, _, _, _, _, _, e => by simp [rootLoop] at e
  | n + 1, np, x, y, h, hl, hs, e => by
    unfold rootLoop at e
    split at e
    · obtain ⟨a, e1, e2⟩ := Res.bind_ok e
      obtain ⟨r1, r2, r3, r4, r5⟩ := ka_simpPass h hl e1
      refine ka_rootLoop r1 r2 (fun hle => .inr ?_) e2
      rename_i hlt
      obtain ⟨-, t2⟩ := r5 (by omega)
      intro v hv
      obtain ⟨c, hc, z, hz, rfl⟩ := hv.ids r1.rinv.wf
      by_cases hm : c ∈ x.1.ids
      · exact t2 c hm z hz
      · exact absurd (mem_ids h.rinv.wf (List.ne_nil_of_mem (r3 c z hz))) hm
    · rename_i hlt
      cases e
      rcases hs (.inr (by omega)) with h0 | h0
      · exact ⟨h, hl, .inl (List.eq_nil_of_length_eq_zero (by omega))⟩
      · exact ⟨h, hl, .inr h0⟩

theorem ka_clearLoop : ∀ {n : Nat} {x y : DS}, KA x → x.2.lim = [] → clearLoop n x = .ok y → KA y ∧ y.2.lim = [] ∧ (y.2.trail = [] ∨ Spotless y.1 y.2)
  | 0, _, _, _, _, e => by simp [clearLoop] at e
  | n + 1, x, y, h, hl, e => by
    unfold clearLoop at e
    obtain ⟨a, e1, e2⟩ := Res.bind_ok e
    obtain ⟨b, e3, e4⟩ := Res.bind_ok e2
    have ha := ka_propRemains h hl e1
    have hb := ka_rootLoop ha.1 ha.2 (fun _ => .inl rfl) e3
    split at e4
    · obtain ⟨c, e5, e6⟩ := Res.bind_ok e4
      have hc := ka_propagate hb.1 hb.2.1 e5
      exact ka_clearLoop hc.1 hc.2 e6
    · cases e4; exact hb

/-- After `clear_asserted_literals` no clause contains an assigned variable. -/
theorem ka_clearAsserted {x y : DS} (h : KA x) (hl : x.2.lim = []) (e : clearAsserted x = .ok y) : KA y ∧ y.2.lim = [] ∧ Spotless y.1 y.2 := by
  have e0 := e
  unfold clearAsserted at e
  obtain ⟨a, e1, e2⟩ := Res.bind_ok e
  obtain ⟨ha, hla, hs⟩ := ka_clearLoop h hl e1
  have hsp : Spotless y.1 y.2 := by
    cases e2
    show Spotless a.1 a.2.archive
    intro v hv
    show a.2.assign v = none
    rcases hs with h0 | h0
    · by_contra hn
      exact ha.ac v hv ⟨hn, by rw [h0]; simp⟩
    · exact h0 v hv
  have := h.ofRG (rg_clearAsserted (r := true) h.rinv hl h.dom) e0 hsp.ac
  exact ⟨this.1, this.2, hsp⟩

/-! ## vivification -/

/-- What the tentative decisions on the literals of a clause lead to. -/
def VDec.AC : VDec → Prop
  | .done db s => Splr.AC db s
  | .conflict db s decs _ _ => Splr.AC db s ∧ (∀ x ∈ decs, s.tr x ∧ 0 < s.level x.var)
  | _ => True

theorem vivDecide_ac : ∀ {ls : Cls} {decs : List Lit} {db : Cdb} {s : Stk}, RInv db s → Splr.AC db s →
    (∀ x ∈ decs, s.tr x ∧ 0 < s.level x.var) → (vivDecide ls decs db s).AC
  | [], decs, db, s, hi, h, hd => h
  | l :: ls, decs, db, s, hi, h, hd => by
    unfold vivDecide
    cases hv : s.val l with
    | some b =>
      cases b with
      | true => exact vivDecide_ac hi h hd
      | false => exact h
    | none =>
      have hn : s.assign l.neg.var = none := by rw [Lit.neg_var]; exact val_none.1 hv
      have hi1 : RInv db (s.assignDecision l.neg) := ⟨hi.wf, hi.inv.assignDecision hn⟩
      have ha1 : Splr.AC db (s.assignDecision l.neg) := h.step (fun _ h => h) fun v hv => gone_push (l := l.neg) rfl rfl hv
      have hg := propagateSandbox_good hi1
      have hd1 : ∀ x ∈ decs ++ [l.neg], (s.assignDecision l.neg).tr x ∧ 0 < (s.assignDecision l.neg).level x.var := by
        intro x hx
        rcases List.mem_append.1 hx with hx | hx
        · have hne : x.var ≠ l.neg.var := fun e => tr_assigned (hd x hx).1 (by rw [e]; exact hn)
          refine ⟨tr_upd hn rfl (hd x hx).1, ?_⟩
          show 0 < upd s.level l.neg.var (s.dl + 1) x.var
          rw [upd_of_ne _ _ hne]; exact (hd x hx).2
        · simp at hx; subst hx
          refine ⟨?_, ?_⟩
          · show upd s.assign l.neg.var (some l.neg.pos) l.neg.var = _; simp
          · show 0 < upd s.level l.neg.var (s.dl + 1) l.neg.var; simp
      have hd2 : ∀ {s1 : Stk}, Stk.Ext (s.assignDecision l.neg) s1 → ∀ x ∈ decs ++ [l.neg], s1.tr x ∧ 0 < s1.level x.var := by
        intro s1 hx x hm
        refine ⟨hx.tr _ (hd1 x hm).1, ?_⟩
        rw [hx.level _ (tr_assigned (hd1 x hm).1)]; exact (hd1 x hm).2
      simp only []
      cases hp : propagateSandbox db (s.assignDecision l.neg) with
      | ok db1 s1 =>
        rw [hp] at hg
        have hx := hg.allR hi1
        exact vivDecide_ac hx.1 (AC.psteps hg hi.wf ha1) (hd2 hx.2.2)
      | conflict db1 s1 cl rs =>
        rw [hp] at hg
        have hx := hg.1.allR hi1
        exact ⟨AC.psteps hg.1 hi.wf ha1, hd2 hx.2.2⟩
      | panic => trivial
      | fuel => trivial

theorem ka_vivOne {x y : DS} {cid : Nat} (h : KA x) (e : vivOne x cid = .ok y) : KA y := by
  have hg := rg_vivOne (r := true) (cid := cid) h.rinv h.dom
  refine (h.ofRG hg e ?_).1
  unfold vivOne at e
  have t0 : Tr true true x.1 x.2 x.1 x.2.backtrackSandbox := Tr.backtrackSandbox h.rinv
  have h0 : KA (x.1, x.2.backtrackSandbox) := ⟨t0.rinv, t0.dom h.dom, h.ac.step (fun _ h => h) fun _ => gone_backtrackSandbox⟩
  obtain ⟨z, e1, e2⟩ := Res.bind_ok e
  obtain ⟨hz, hlz⟩ := ka_propRemains h0 (backtrackSandbox_lim _) e1
  split at e2
  · cases e2; exact hz.ac
  have hw := vivDecide_ac (ls := (z.1.clause cid).lits) (decs := []) hz.rinv hz.ac (by simp)
  have hdec0 : DecIn z.2 [] := by
    intro l hl h1; have := hz.rinv.inv.level_root hlz (tr_assigned (hz.rinv.inv.tv l hl)); omega
  have hgd := vivDecide_good (k := true) (r := true) (c := (z.1.clause cid).lits) (ls := (z.1.clause cid).lits) (fun _ h => h) hz.rinv hdec0
    (by simp) (fun x hx => hz.dom.cl cid x hx)
  split at e2
  · rename_i db s hv
    rw [hv] at hw
    cases e2; exact hw
  · simp at e2
  · simp at e2
  · rename_i db s decs l rs hv
    rw [hv] at hw hgd
    obtain ⟨w1, w2⟩ := hw
    obtain ⟨t1, hco, hde, hdc, hlim⟩ := hgd
    have hb : Splr.AC db s.backtrackSandbox := w1.step (fun _ h => h) fun _ => gone_backtrackSandbox
    split at e2
    · simp at e2
    · cases e2; exact hb
    · rename_i conf hcf
      split at e2
      · simp at e2
      · rename_i vec hvec
        obtain ⟨a2, s2⟩ := sweep_sub hvec
        unfold vivApply at e2
        split at e2
        · simp at e2
        · have hd := assignRootRes_db e2
          refine hb.step (fun v => ?_) fun v => gone_assignRootRes e2
          rw [hd]; exact id
        · split at e2
          · simp at e2
          · rename_i db1 rf hn
            obtain ⟨b1, b2⟩ := removeRes_shr e2
            have hun : ∀ x ∈ vec, s.backtrackSandbox.assign x.var = none := by
              intro x hx
              have := w2 _ (a2 x hx)
              rw [Cut.assign_iff t1.rinv.inv (backtrackSandbox_cut hlim).1, if_neg]
              rw [← Lit.neg_var]; omega
            rw [b2]
            rintro v ⟨i, m, h1, rfl⟩ hgn
            rcases newClause_shr hn i m (b1 i m h1) with h2 | h2
            · exact hgn.1 (hun m h2)
            · exact hb _ ⟨i, m, h2, rfl⟩ hgn

theorem ka_vivLoop : ∀ {cids : List Nat} {x y : DS}, KA x → vivLoop cids x = .ok y → KA y
  | [], x, y, h, e => by unfold vivLoop at e; cases e; exact h
  | cid :: cids, x, y, h, e => by
    unfold vivLoop at e
    obtain ⟨a, e1, e2⟩ := Res.bind_ok e
    exact ka_vivLoop (ka_vivOne h e1) e2

theorem ka_vivify {targets : List Nat} {x y : DS} (h : KA x) (hl : x.2.lim = []) (e : vivify targets x = .ok y) : KA y ∧ y.2.lim = [] := by
  unfold vivify at e
  obtain ⟨a, e1, e2⟩ := Res.bind_ok e
  have ha := ka_propRemains h hl e1
  split at e2
  · cases e2; exact ⟨ha.1, ha.2⟩
  · obtain ⟨b, e3, e4⟩ := Res.bind_ok e2
    obtain ⟨c, e5, e6⟩ := Res.bind_ok e4
    have hb := ka_vivLoop ha.1 e3
    have t0 : Tr true true b.1 b.2 b.1 b.2.backtrackSandbox := Tr.backtrackSandbox hb.rinv
    have h0 : KA (b.1, b.2.backtrackSandbox) := ⟨t0.rinv, t0.dom hb.dom, hb.ac.step (fun _ h => h) fun _ => gone_backtrackSandbox⟩
    have hc := ka_propRemains h0 (backtrackSandbox_lim _) e5
    have := ka_clearAsserted hc.1 hc.2 e6
    exact ⟨this.1, this.2.1⟩

end Splr
