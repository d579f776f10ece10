import Verif.Lemmas.Ends
import Verif.Lemmas.WatchRoot
/-! Nothing panics and all loops end: the root level and vivification. -/
namespace Splr
open Stk

/-- What is needed. -/
structure RD (x : DS) : Prop where
  inv : RInv x.1 x.2
  dom : Dom x.1 x.2
  few : Few x.2

theorem RD.tr {k r : Bool} {x : DS} (h : RD x) {db : Cdb} {s : Stk} (t : Tr k r x.1 x.2 db s) : RD (db, s) :=
  ⟨t.rinv, t.dom h.dom, by have := h.few; unfold Few at *; rw [t.sp.numVars]; exact this⟩

theorem RG.ok {α : Type} {k r : Bool} {db : Cdb} {s : Stk} {p : α → DS} {Q : α → Prop} {x : Res α} {a : α} (h : RG k r db s p Q x) (e : x = .ok a) :
    Tr k r db s (p a).1 (p a).2 ∧ Q a := by subst e; exact h

theorem removeRes_ends {db : Cdb} {s : Stk} {cid : Nat} (h : db.WF) (hne : (db.clause cid).lits ≠ []) : (db.removeRes s cid).Ends := by
  obtain ⟨d, e⟩ := Cdb.removeClause_isSome h hne
  unfold Cdb.removeRes
  rw [e]; trivial

theorem assignRootRes_ends {s : Stk} {db : Cdb} {l : Lit} : (s.assignRootRes db l).Ends := by
  unfold Stk.assignRootRes
  split <;> trivial

theorem assignRootRes_ok {s : Stk} {db : Cdb} {l : Lit} (hl : s.lim = []) {y : DS} (e : s.assignRootRes db l = .ok y) :
    y.1 = db ∧ s.trail.length ≤ y.2.trail.length ∧ y.2.qhead = s.qhead := by
  have hc0 : s.cancelUntil noLow 0 = s := cancelUntil_noop (by unfold Stk.dl; rw [hl]; simp)
  unfold Stk.assignRootRes Stk.assignRoot at e
  rw [hc0] at e
  simp only [] at e
  cases h : s.assign l.var with
  | none => rw [h] at e; simp only [] at e; cases e; exact ⟨rfl, by simp [makeAsserted], rfl⟩
  | some b =>
    rw [h] at e
    simp only [] at e
    cases hb : b == l.pos <;> rw [hb] at e
    · simp at e
    · cases e; exact ⟨rfl, Nat.le_refl _, rfl⟩

theorem propagateRes_ends {x : DS} (h : RD x) : (propagateSandbox x.1 x.2).toRes.Ends := (propagateSandbox_ends h.inv h.dom h.few).toRes

theorem propRemains_ends {x : DS} (h : RD x) : (propRemains x).Ends := by
  unfold propRemains
  split
  · exact propagateRes_ends h
  · trivial

theorem simpOne_ends {x : DS} {cid : Nat} (h : RD x) (hl : x.2.lim = []) :
    (simpOne x cid).Ends ∧ ∀ y, simpOne x cid = .ok y → x.2.trail.length ≤ y.2.trail.length ∧ y.2.qhead = x.2.qhead := by
  unfold simpOne
  split
  · exact ⟨trivial, fun y e => by cases e; exact ⟨Nat.le_refl _, rfl⟩⟩
  rename_i hdead
  have hne : (x.1.clause cid).lits ≠ [] := by simpa [Cl.dead] using hdead
  obtain ⟨db', rf, e, w, out, -⟩ := Cdb.transformBySimplification_spec (asg := x.2.assign) (elim := x.2.elim) h.inv.wf hne
  rw [e]
  cases out with
  | empty h1 h2 => exact ⟨trivial, fun y e => by simp at e⟩
  | unit l h1 h2 =>
    refine ⟨assignRootRes_ends.bind fun y ey => ?_, fun y ey => ?_⟩
    · obtain ⟨e1, -⟩ := assignRootRes_ok hl ey
      subst h2
      refine removeRes_ends ?_ ?_
      · rw [e1]; exact Cdb.wf_lits w (fun _ => ⟨rfl, rfl⟩) rfl rfl rfl rfl rfl
      · rw [e1]; exact hne
    · obtain ⟨z, ez, er⟩ := Res.bind_ok ey
      obtain ⟨-, e2, e3⟩ := assignRootRes_ok hl ez
      rw [(removeRes_ok er).2]; exact ⟨e2, e3⟩
  | _ => exact ⟨trivial, fun y e => by cases e; exact ⟨Nat.le_refl _, rfl⟩⟩

theorem simpPass_ends : ∀ {cids : List Nat} {x : DS}, RD x → x.2.lim = [] →
    (simpPass cids x).Ends ∧ ∀ y, simpPass cids x = .ok y → x.2.trail.length ≤ y.2.trail.length ∧ y.2.qhead = x.2.qhead
  | [], x, _, _ => ⟨trivial, fun y e => by cases e; exact ⟨Nat.le_refl _, rfl⟩⟩
  | cid :: cids, x, h, hl => by
    unfold simpPass
    have h1 := simpOne_ends (cid := cid) h hl
    have key : ∀ z, simpOne x cid = .ok z → RD z ∧ z.2.lim = [] := fun z ez => by
      obtain ⟨t, q⟩ := (rg_simpOne (r := true) h.inv hl h.dom).ok ez
      exact ⟨h.tr t, q⟩
    refine ⟨h1.1.bind fun z ez => (simpPass_ends (key z ez).1 (key z ez).2).1, fun y e => ?_⟩
    obtain ⟨z, ez, e⟩ := Res.bind_ok e
    have a := h1.2 z ez
    have b := (simpPass_ends (key z ez).1 (key z ez).2).2 y e
    exact ⟨Nat.le_trans a.1 b.1, b.2.trans a.2⟩

theorem rootLoop_ends : ∀ {n np : Nat} {x : DS}, RD x → x.2.lim = [] → np ≤ x.2.numVars → x.2.numVars < n + np →
    (rootLoop n np x).Ends ∧ ∀ y, rootLoop n np x = .ok y → x.2.trail.length ≤ y.2.trail.length ∧ y.2.qhead = x.2.qhead
  | 0, np, x, h, hl, h1, h2 => by omega
  | n + 1, np, x, h, hl, h1, h2 => by
    unfold rootLoop
    split
    · rename_i hlt
      have hs := simpPass_ends (cids := x.1.ids) h hl
      have htl := trail_le h.inv.inv h.dom
      have key : ∀ z, simpPass x.1.ids x = .ok z →
          (rootLoop n x.2.trail.length z).Ends ∧ ∀ y, rootLoop n x.2.trail.length z = .ok y → z.2.trail.length ≤ y.2.trail.length ∧ y.2.qhead = z.2.qhead := by
        intro z ez
        obtain ⟨t, q⟩ := (rg_simpPass (r := true) h.inv hl h.dom).ok ez
        have hv : z.2.numVars = x.2.numVars := t.sp.numVars
        exact rootLoop_ends (h.tr t) q (by rw [hv]; exact htl) (by rw [hv]; omega)
      refine ⟨hs.1.bind fun z ez => (key z ez).1, fun y e => ?_⟩
      obtain ⟨z, ez, e⟩ := Res.bind_ok e
      have a := hs.2 z ez
      have b := (key z ez).2 y e
      exact ⟨Nat.le_trans a.1 b.1, b.2.trans a.2⟩
    · exact ⟨trivial, fun y e => by cases e; exact ⟨Nat.le_refl _, rfl⟩⟩

theorem PSteps.trail_le {db : Cdb} {s : Stk} {db' : Cdb} {s' : Stk} (h : PSteps db s db' s') : s.trail.length ≤ s'.trail.length := by
  induction h with
  | refl => exact Nat.le_refl _
  | cons h _ ih =>
    refine Nat.le_trans ?_ ih
    cases h with
    | imply l r hn hr => rw [(assignImpl_fields _ l r _).2.2.2.1]; simp
    | _ => exact Nat.le_refl _

theorem propagateRes_trail {x y : DS} (h : RD x) (e : (propagateSandbox x.1 x.2).toRes = .ok y) : x.2.trail.length ≤ y.2.trail.length := by
  have hg := propagateSandbox_good h.inv
  cases hp : propagateSandbox x.1 x.2 with
  | ok db s => rw [hp] at e hg; cases e; exact hg.trail_le
  | _ => rw [hp] at e; simp [PRes.toRes] at e

theorem propRemains_trail {x y : DS} (h : RD x) (e : propRemains x = .ok y) : x.2.trail.length ≤ y.2.trail.length ∧ y.2.remains = false := by
  unfold propRemains at e
  split at e
  · exact ⟨propagateRes_trail h e, propagate_remains h.inv e⟩
  · rename_i hr; cases e; exact ⟨Nat.le_refl _, by simpa using hr⟩

theorem clearLoop_ends : ∀ {n : Nat} {x : DS}, RD x → x.2.lim = [] → x.2.numVars < n + x.2.trail.length → (clearLoop n x).Ends
  | 0, x, h, _, hn => by have := trail_le h.inv.inv h.dom; omega
  | n + 1, x, h, hl, hn => by
    unfold clearLoop
    refine (propRemains_ends h).bind fun y ey => ?_
    obtain ⟨ty, hy⟩ := (rg_propRemains (k := true) (r := true) h.inv hl).ok ey
    obtain ⟨y1, y2⟩ := propRemains_trail h ey
    have hRy : RD y := h.tr ty
    have hvy : y.2.numVars = x.2.numVars := ty.sp.numVars
    have hr := rootLoop_ends (n := y.2.numVars + 2) (np := 0) hRy hy (Nat.zero_le _) (by simp)
    refine hr.1.bind fun z ez => ?_
    obtain ⟨tz, hz⟩ := (rg_rootLoop (r := true) hRy.inv hy hRy.dom).ok ez
    obtain ⟨z1, z2⟩ := hr.2 z ez
    have hRz : RD z := hRy.tr tz
    have hvz : z.2.numVars = y.2.numVars := tz.sp.numVars
    split
    · rename_i hrem
      refine (propagateRes_ends hRz).bind fun u eu => ?_
      obtain ⟨tu, hu⟩ := (rg_propagate (k := true) (r := true) hRz.inv hz).ok eu
      have hvu : u.2.numVars = z.2.numVars := tu.sp.numVars
      have u1 := propagateRes_trail hRz eu
      refine clearLoop_ends (hRz.tr tu) hu ?_
      have hq : y.2.trail.length ≤ y.2.qhead := by simpa [Stk.remains] using y2
      have hq2 : z.2.qhead < z.2.trail.length := by simpa [Stk.remains] using hrem
      omega
    · trivial

theorem clearAsserted_ends {x : DS} (h : RD x) (hl : x.2.lim = []) : (clearAsserted x).Ends := by
  unfold clearAsserted
  exact (clearLoop_ends h hl (by omega)).bind fun _ _ => trivial

/-! ## vivification -/

/-- No panic, and the bounds on the iterations suffice. -/
def VDec.Ends : VDec → Prop
  | .panic => False
  | .fuel => False
  | _ => True

theorem vivDecide_ends {c : Cls} : ∀ {ls : Cls} {decs : List Lit} {db : Cdb} {s : Stk}, (∀ x ∈ ls, x ∈ c) → RD (db, s) → (∀ x ∈ c, Okv s x.var) →
    (vivDecide ls decs db s).Ends
  | [], _, _, _, _, _, _ => trivial
  | l :: ls, decs, db, s, hsub, h, hok => by
    unfold vivDecide
    cases hv : s.val l with
    | some b =>
      cases b with
      | true => exact vivDecide_ends (fun x hx => hsub x (by simp [hx])) h hok
      | false => trivial
    | none =>
      have hn : s.assign l.neg.var = none := by rw [Lit.neg_var]; exact val_none.1 hv
      have t1 : Tr true true db s db (s.assignDecision l.neg) := Tr.assignDecision h.inv hn (fun _ => hok l (hsub l (by simp)))
      have h1 := h.tr t1
      have hg := propagateSandbox_good h1.inv
      have he := propagateSandbox_ends h1.inv h1.dom h1.few
      simp only []
      cases hp : propagateSandbox db (s.assignDecision l.neg) with
      | ok db1 s1 =>
        simp only [] at hg he
        rw [hp] at hg
        have t2 : Tr true true db (s.assignDecision l.neg) db1 s1 := hg.trn t1.rinv
        have tt := t1.trans t2
        exact vivDecide_ends (fun x hx => hsub x (by simp [hx])) (h.tr tt) fun x hx => tt.sp.okv.2 (hok x hx)
      | conflict => trivial
      | panic => simp only [] at he; rw [hp] at he; exact he
      | fuel => simp only [] at he; rw [hp] at he; exact he

theorem sweep_some {db : Cdb} {s : Stk} (hi : Inv db s) {decs : List Lit} : ∀ {ls : List Lit} {seen : Nat → Bool}, (∀ l ∈ ls, l ∈ s.trail) →
    ∃ vec, sandboxSweep db s decs ls seen = some vec
  | [], _, _ => ⟨_, rfl⟩
  | t :: ls, seen, h => by
    have ih : ∀ seen', ∃ vec, sandboxSweep db s decs ls seen' = some vec := fun _ => sweep_some hi fun l hl => h l (by simp [hl])
    unfold sandboxSweep
    split
    · obtain ⟨pre, post, e⟩ := List.append_of_mem (h t (by simp))
      have hr := hi.rs pre t post e
      unfold ReasonOK at hr
      simp only []
      split
      · obtain ⟨v, e⟩ := ih seen; rw [e]; exact ⟨_, rfl⟩
      · rename_i m _; obtain ⟨v, e⟩ := ih (upd seen m.var true); rw [e]; exact ⟨_, rfl⟩
      · rename_i cid _
        obtain ⟨v, e⟩ := ih (fun v => seen v || decide (v ∈ ((db.clause cid).lits.drop 1).map Lit.var)); rw [e]; exact ⟨_, rfl⟩
      · rename_i hn; rw [hn] at hr; exact hr.elim
    · exact ih seen

theorem newClause_ends {db : Cdb} {level : Nat → Nat} {vec : Cls} {learnt : Bool} (h : 2 ≤ vec.length) :
    ∃ db' rf, db.newClause level vec learnt = some (db', rf) := by
  match vec, h with
  | l0 :: l1 :: tl, _ =>
    unfold Cdb.newClause
    simp only []
    split
    · exact ⟨_, _, rfl⟩
    · exact ⟨_, _, rfl⟩

theorem vivOne_ends {x : DS} {cid : Nat} (h : RD x) : (vivOne x cid).Ends := by
  unfold vivOne
  have t0 : Tr true true x.1 x.2 x.1 x.2.backtrackSandbox := Tr.backtrackSandbox h.inv
  have h0 := h.tr t0
  refine (propRemains_ends h0).bind fun y ey => ?_
  obtain ⟨ty, hy⟩ := (rg_propRemains (k := true) (r := true) (x := (x.1, x.2.backtrackSandbox)) t0.rinv (backtrackSandbox_lim _)).ok ey
  have hRy : RD y := h0.tr ty
  split
  · trivial
  rename_i hdead
  have hne : (y.1.clause cid).lits ≠ [] := by simpa [Cl.dead] using hdead
  have hdec0 : DecIn y.2 [] := by
    intro l hl h1; have := hRy.inv.inv.level_root hy (tr_assigned (hRy.inv.inv.tv l hl)); omega
  have hg := vivDecide_good (k := true) (r := true) (c := (y.1.clause cid).lits) (ls := (y.1.clause cid).lits) (fun _ h => h) hRy.inv hdec0
    (by simp) (fun x hx => hRy.dom.cl cid x hx)
  have he := vivDecide_ends (c := (y.1.clause cid).lits) (ls := (y.1.clause cid).lits) (decs := []) (fun _ h => h) hRy (fun x hx => hRy.dom.cl cid x hx)
  cases hv : vivDecide (y.1.clause cid).lits [] y.1 y.2 with
  | done db s => trivial
  | panic => rw [hv] at he; exact he
  | fuel => rw [hv] at he; exact he
  | conflict db s decs l rs =>
    rw [hv] at hg
    obtain ⟨t1, hco, hde, hdc, hlim⟩ := hg
    simp only []
    have t2 : Tr true true db s db s.backtrackSandbox := Tr.backtrackSandbox t1.rinv
    have hcf : ∃ o, vivConflicting db cid (y.1.clause cid).lits decs l rs = some o := by
      unfold vivConflicting
      cases rs with
      | binary m => simp only []; split <;> exact ⟨_, rfl⟩
      | impl ci => simp only []; split <;> exact ⟨_, rfl⟩
      | _ => exact hco.elim
    obtain ⟨o, hcf⟩ := hcf
    rw [hcf]
    cases o with
    | none => trivial
    | some conf =>
      simp only []
      obtain ⟨vec, ha⟩ : ∃ vec, analyzeSandbox db s decs conf = some vec := by
        unfold analyzeSandbox
        exact sweep_some t1.rinv.inv fun l hl => List.mem_of_mem_drop (List.mem_reverse.1 hl)
      rw [ha]
      simp only []
      obtain ⟨-, a2, a3⟩ := sweep_nodup t1.rinv.inv ha
      have hsame := vivDecide_same hRy.inv hv
      unfold vivApply
      split
      · trivial
      · exact assignRootRes_ends
      · rename_i hv0 hv1
        have h2 : 2 ≤ vec.length := by
          match vec, hv0, hv1 with
          | [], h, _ => exact absurd rfl h
          | [l], _, h => exact absurd rfl (h l)
          | _ :: _ :: _, _, _ => simp
        obtain ⟨db1, rf, hn⟩ := newClause_ends (db := db) (level := s.backtrackSandbox.level) (learnt := (y.1.clause cid).learnt) h2
        simp only []
        rw [hn]
        simp only []
        have hne1 : (db.clause cid).lits ≠ [] := by
          intro e; have := (hsame.perm cid).length_eq; rw [e] at this; exact hne (List.length_eq_zero_iff.1 this.symm)
        obtain ⟨w, hcase⟩ := Cdb.newClause_spec t2.rinv.wf a3 hn
        refine removeRes_ends w ?_
        rcases hcase with ⟨j, a, b, -, rfl, -⟩ | ⟨j, c, -, -, -, hj, hc, h2, -, -, -, hcl, -⟩
        · exact hne1
        · rw [hcl]
          by_cases e : cid = j
          · subst e; exact absurd hj hne1
          · rw [upd_of_ne _ _ e]; exact hne1
where
  sweep_nodup {db : Cdb} {s : Stk} (hi : Inv db s) {decs : List Lit} {conf : Cls} {vec : Cls} (h : analyzeSandbox db s decs conf = some vec) :
      True ∧ (∀ x ∈ vec, x.neg ∈ decs) ∧ (vec.map Lit.var).Nodup := by
    unfold analyzeSandbox at h
    obtain ⟨s1, s2⟩ := sweep_sub h
    refine ⟨trivial, s1, s2.nodup ?_⟩
    rw [List.map_reverse, List.nodup_reverse]
    exact hi.nd.sublist ((List.drop_sublist _ _).map _)

theorem vivLoop_ends : ∀ {cids : List Nat} {x : DS}, RD x → (vivLoop cids x).Ends
  | [], _, _ => trivial
  | cid :: cids, x, h => by
    unfold vivLoop
    refine (vivOne_ends h).bind fun y ey => ?_
    exact vivLoop_ends (h.tr ((rg_vivOne (r := true) h.inv h.dom).ok ey).1)

theorem vivify_ends {targets : List Nat} {x : DS} (h : RD x) (hl : x.2.lim = []) : (vivify targets x).Ends := by
  unfold vivify
  refine (propRemains_ends h).bind fun y ey => ?_
  obtain ⟨ty, hy⟩ := (rg_propRemains (k := true) (r := true) h.inv hl).ok ey
  have hRy : RD y := h.tr ty
  split
  · trivial
  refine (vivLoop_ends hRy).bind fun z ez => ?_
  obtain ⟨tz, -⟩ := (rg_vivLoop (r := true) hRy.inv hRy.dom).ok ez
  have hRz : RD z := hRy.tr tz
  have t0 : Tr true true z.1 z.2 z.1 z.2.backtrackSandbox := Tr.backtrackSandbox hRz.inv
  have hR0 := hRz.tr t0
  refine (propRemains_ends hR0).bind fun u eu => ?_
  obtain ⟨tu, hu⟩ := (rg_propRemains (k := true) (r := true) (x := (z.1, z.2.backtrackSandbox)) t0.rinv (backtrackSandbox_lim _)).ok eu
  exact clearAsserted_ends (hR0.tr tu) hu

end Splr
