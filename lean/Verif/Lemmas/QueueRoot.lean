import Verif.Model.QueueSolve
import Verif.Lemmas.QueueIter
/-! # The array queue: the root level and vivification -/
namespace Splr
open Stk QStk

/-- The results agree. -/
inductive RRel {α β : Type} (R : α → β → Prop) : Res α → ResQ β → Prop
  | ok {a : α} {b : β} (h : R a b) : RRel R (.ok a) (.ok b)
  | unsat {db : Cdb} {s : Stk} {x : QStk} (h : QRel s x) : RRel R (.unsat db s) (.unsat db x)
  | err : RRel R .err .err
  | panic : RRel R .panic .panic
  | fuel : RRel R .fuel .fuel

/-- The same database, and the trails agree. -/
structure DRel (x : DS) (y : DQ) : Prop where
  db : y.1 = x.1
  rel : QRel x.2 y.2

theorem RRel.bind {α β α' β' : Type} {R : α → β → Prop} {S : α' → β' → Prop} {r : Res α} {r' : ResQ β} {f : α → Res α'} {g : β → ResQ β'}
    (h : RRel R r r') (hf : ∀ a b, r = .ok a → R a b → RRel S (f a) (g b)) : RRel S (r.bind f) (r'.bind g) := by
  cases h with
  | ok h => exact hf _ _ rfl h
  | unsat h => exact .unsat h
  | err => exact .err
  | panic => exact .panic
  | fuel => exact .fuel

theorem RRel.mono {α β : Type} {R S : α → β → Prop} {r : Res α} {r' : ResQ β} (h : RRel R r r') (hf : ∀ a b, R a b → S a b) : RRel S r r' := by
  cases h with
  | ok h => exact .ok (hf _ _ h)
  | unsat h => exact .unsat h
  | err => exact .err
  | panic => exact .panic
  | fuel => exact .fuel

@[simp] theorem ResQ.chk_true {α : Type} (r : ResQ α) : ResQ.chk true r = r := rfl
@[simp] theorem ResQ.lift_some {α β : Type} (a : α) (k : α → ResQ β) : ResQ.lift (some a) k = k a := rfl
@[simp] theorem ResQ.lift_none {α β : Type} (k : α → ResQ β) : ResQ.lift none k = .panic := rfl

theorem PRel.toRes {r : PRes} {r' : PResQ} (h : PRel r r') : RRel DRel r.toRes (PResQ.toRes r') := by
  cases h with
  | ok h => exact .ok ⟨rfl, h⟩
  | conflict h => exact .unsat h
  | panic => exact .panic
  | fuel => exact .fuel

/-- What is needed. -/
abbrev KT : DS → Prop := KW (fun _ => True)

theorem KW.bi {Z : Lit → Prop} {x : DS} (h : KW Z x) : BI x.1 x.2 := ⟨h.rinv, h.dom, _, h.wt⟩

theorem KW.rg {Z : Lit → Prop} {x : DS} (h : KW Z x) : Rg x.2.numVars x.1 := h.bi.inBounds.rg

theorem okLits_of {s : Stk} {x : QStk} (h : QRel s x) {c : Cls} (hc : ∀ l ∈ c, 1 ≤ l.var ∧ l.var ≤ s.numVars) : x.okLits c = true := by
  simp only [QStk.okLits, List.all_eq_true]
  exact fun l hl => okV_of h (hc l hl)

theorem okRank_of {s : Stk} {x : QStk} (h : QRel s x) {c : Cls} (hc : ∀ l ∈ c, 1 ≤ l.var ∧ l.var ≤ s.numVars) (hv : ∀ v, s.level v ≤ s.numVars) : x.okRank c = true := by
  simp only [QStk.okRank, List.all_eq_true]
  intro l hl
  rw [okV_of h (hc l hl)]
  have e : x.s.level = s.level := by rw [← h.same]
  have e' : x.s.numVars = s.numVars := by rw [← h.same]
  rw [e, e']
  simp [hv]

theorem okC_wf {db : Cdb} (w : db.WF) {i : Nat} (h : (db.clause i).lits ≠ []) : okC db i = true := by
  have := clauseIx w h
  exact okC_of ⟨this.1, this.2.1⟩

theorem assignRootRes_sim {s : Stk} {x : QStk} (h : QRel s x) (db : Cdb) {l : Lit} (hl : 1 ≤ l.var ∧ l.var ≤ s.numVars) :
    RRel DRel (s.assignRootRes db l) (x.assignRootResQ db l) := by
  obtain ⟨x', e, h'⟩ := h.assignRoot noLow hl
  unfold Stk.assignRootRes assignRootResQ
  rw [okV_of h hl, e, ResQ.chk_true]
  generalize s.assignRoot noLow l = z at *
  obtain ⟨s1, b⟩ := z
  cases b with
  | true => exact .ok ⟨rfl, h'⟩
  | false => exact .unsat h'

theorem removeRes_sim {s : Stk} {x : QStk} (h : QRel s x) {db : Cdb} {cid : Nat} (hc : okC db cid = true) :
    RRel DRel (db.removeRes s cid) (removeResQ db x cid) := by
  unfold Cdb.removeRes removeResQ
  rw [hc, ResQ.chk_true]
  cases db.removeClause cid with
  | none => exact .panic
  | some d => exact .ok ⟨rfl, h⟩

theorem simpOne_sim {x : DS} {y : DQ} {cid : Nat} (h : KT x) (hl : x.2.lim = []) (hy : DRel x y) : RRel DRel (simpOne x cid) (simpOneQ y cid) := by
  obtain ⟨db, s⟩ := x
  obtain ⟨db', x⟩ := y
  obtain ⟨rfl, hx⟩ := hy
  simp only [] at hx hl
  unfold simpOne simpOneQ
  simp only []
  split
  · exact .ok ⟨rfl, hx⟩
  rename_i hdead
  have hne : (db'.clause cid).lits ≠ [] := by simpa [Cl.dead] using hdead
  have hrg : ∀ l ∈ (db'.clause cid).lits, 1 ≤ l.var ∧ l.var ≤ s.numVars := fun l hl => h.rg.cl cid l hl
  have e1 : x.s.assign = s.assign := by rw [← hx.same]
  have e2 : x.s.elim = s.elim := by rw [← hx.same]
  rw [okC_wf h.rinv.wf hne, okLits_of hx hrg, e1, e2, Bool.and_self, ResQ.chk_true]
  obtain ⟨d, rf, e, w, out, -⟩ := Cdb.transformBySimplification_spec (asg := s.assign) (elim := s.elim) h.rinv.wf hne
  rw [e]
  cases out with
  | empty h1 h2 => exact .unsat hx
  | unit l h1 h2 =>
    subst h2
    have hlm : l ∈ (d.clause cid).lits := by
      have : l ∈ [l] := by simp
      rw [← h1] at this
      exact List.mem_of_mem_filter this
    refine (assignRootRes_sim hx _ (hrg l hlm)).bind fun a b ea hab => ?_
    obtain ⟨ad, as⟩ := a
    obtain ⟨bd, bx⟩ := b
    obtain ⟨rfl, hb⟩ := hab
    obtain ⟨c1, -⟩ := assignRootRes_ok hl ea
    simp only [] at c1 hb
    refine removeRes_sim hb ?_
    rw [c1]
    exact okC_wf h.rinv.wf hne
  | _ => exact .ok ⟨rfl, hx⟩

theorem simpPass_sim : ∀ {cids : List Nat} {x : DS} {y : DQ}, KT x → x.2.lim = [] → DRel x y → RRel DRel (simpPass cids x) (simpPassQ cids y)
  | [], x, y, _, _, hy => .ok hy
  | cid :: cids, x, y, h, hl, hy => by
    unfold simpPass simpPassQ
    refine (simpOne_sim h hl hy).bind fun a b ea hab => ?_
    obtain ⟨ha, hla⟩ := kw_simpOne h hl ea
    exact simpPass_sim ha hla hab

theorem rootLoop_sim : ∀ {n np : Nat} {x : DS} {y : DQ}, KT x → x.2.lim = [] → DRel x y → RRel DRel (rootLoop n np x) (rootLoopQ n np y)
  | 0, np, x, y, _, _, _ => .fuel
  | n + 1, np, x, y, h, hl, hy => by
    have e1 : y.2.s.trail = x.2.trail := by rw [← hy.rel.same]
    unfold rootLoop rootLoopQ
    rw [e1, hy.db]
    split
    · refine (simpPass_sim h hl hy).bind fun a b ea hab => ?_
      obtain ⟨ha, hla⟩ := kw_simpPass h hl ea
      exact rootLoop_sim ha hla hab
    · exact .ok hy

theorem sandbox_sim {x : DS} {y : DQ} (h : KT x) (hy : DRel x y) : RRel DRel (propagateSandbox x.1 x.2).toRes (PResQ.toRes (propagateSandboxQ y.1 y.2)) := by
  rw [hy.db]
  exact (propagateSandbox_sim hy.rel h.rg).1.toRes

theorem propRemains_sim {x : DS} {y : DQ} (h : KT x) (hy : DRel x y) : RRel DRel (propRemains x) (propRemainsQ y) := by
  have e1 : y.2.s.remains = x.2.remains := by rw [← hy.rel.same]; rfl
  unfold propRemains propRemainsQ
  rw [e1]
  split
  · exact sandbox_sim h hy
  · exact .ok hy

theorem clearLoop_sim : ∀ {n : Nat} {x : DS} {y : DQ}, KT x → x.2.lim = [] → DRel x y → RRel DRel (clearLoop n x) (clearLoopQ n y)
  | 0, x, y, _, _, _ => .fuel
  | n + 1, x, y, h, hl, hy => by
    unfold clearLoop clearLoopQ
    refine (propRemains_sim h hy).bind fun a b ea hab => ?_
    obtain ⟨ha, hla, -⟩ := kw_propRemains h hl ea
    have e1 : b.2.s.numVars = a.2.numVars := by rw [← hab.rel.same]
    rw [e1]
    refine (rootLoop_sim ha hla hab).bind fun c d ec hcd => ?_
    obtain ⟨hc, hlc⟩ := kw_rootLoop ha hla ec
    have e2 : d.2.s.remains = c.2.remains := by rw [← hcd.rel.same]; rfl
    rw [e2]
    split
    · refine (sandbox_sim hc hcd).bind fun u v eu huv => ?_
      obtain ⟨hu, hlu⟩ := kw_propagate hc hlc eu
      exact clearLoop_sim hu hlu huv
    · exact .ok hcd

theorem clearAsserted_sim {x : DS} {y : DQ} (h : KT x) (hl : x.2.lim = []) (hy : DRel x y) : RRel DRel (clearAsserted x) (clearAssertedQ y) := by
  have e1 : y.2.s.numVars = x.2.numVars := by rw [← hy.rel.same]
  unfold clearAsserted clearAssertedQ
  rw [e1]
  refine (clearLoop_sim h hl hy).bind fun a b _ hab => .ok ⟨hab.db, ?_⟩
  obtain ⟨hp, e⟩ := hab.rel.of
  refine hab.rel.other (by rw [e]; rfl) rfl (fun l hl => ?_) hab.rel.dom.sv
  simp [Stk.archive] at hl

/-! ## vivification -/

theorem sweepC_eq {db : Cdb} {s : Stk} {x : QStk} (hx : QRel s x) (g : Gs db s) (decs : List Lit) : ∀ (ls : List Lit) (seen : Nat → Bool), (∀ l ∈ ls, l ∈ s.trail) →
    sandboxSweepC db x decs ls seen = sandboxSweep db s decs ls seen
  | [], _, _ => rfl
  | l :: ls, seen, h => by
    have ih := fun seen' => sweepC_eq hx g decs ls seen' fun l hl => h l (by simp [hl])
    have e1 : x.s.reason = s.reason := by rw [← hx.same]
    unfold sandboxSweepC sandboxSweep
    rw [okV_of hx (hx.dom.tr l (h l (by simp))), e1]
    simp only [if_true, ih]
    split
    · cases hr : s.reason l.var with
      | none => rfl
      | decision k => rfl
      | binary m => simp only []; rw [okV_of hx (g.bn _ _ hr)]; rfl
      | impl cid =>
        simp only []
        rw [okC_of (g.rs _ _ hr).1, okLits_of hx fun m hm => g.rg.cl cid m hm]
        rfl
    · rfl

/-- The results agree. -/
inductive VRel : VDec → VDecQ → Prop
  | done {db : Cdb} {s : Stk} {x : QStk} (h : QRel s x) : VRel (.done db s) (.done db x)
  | conflict {db : Cdb} {s : Stk} {x : QStk} {decs : List Lit} {l : Lit} {r : Reason} (h : QRel s x) : VRel (.conflict db s decs l r) (.conflict db x decs l r)
  | panic : VRel .panic .panic
  | fuel : VRel .fuel .fuel

theorem decision_rel {s : Stk} {x : QStk} (h : QRel s x) {l : Lit} (hl : 1 ≤ l.var ∧ l.var ≤ s.numVars) :
    QRel (s.assignDecision l) { x with s := x.s.assignDecision l } := by
  obtain ⟨hp, e⟩ := h.of
  refine h.other (by rw [e]; rfl) rfl ?_ h.dom.sv
  intro m hm
  simp only [Stk.assignDecision, List.mem_append, List.mem_singleton] at hm
  rcases hm with hm | rfl
  · exact h.dom.tr m hm
  · exact hl

theorem vivDecide_sim : ∀ {ls : Cls} {decs : List Lit} {db : Cdb} {s : Stk} {x : QStk}, (∀ l ∈ ls, Okv s l.var) → KT (db, s) → s.remains = false → QRel s x →
    VRel (vivDecide ls decs db s) (vivDecideQ ls decs db x)
  | [], decs, db, s, x, _, _, _, hx => .done hx
  | l :: ls, decs, db, s, x, hok, h, hr, hx => by
    have hokl := hok l (by simp)
    have e1 : x.s.val = s.val := by rw [← hx.same]; rfl
    unfold vivDecide vivDecideQ
    rw [okV_of hx ⟨hokl.1, hokl.2.1⟩, e1]
    simp only [if_true]
    cases hv : s.val l with
    | some b =>
      cases b with
      | true => exact vivDecide_sim (fun m hm => hok m (by simp [hm])) h hr hx
      | false => exact .done hx
    | none =>
      simp only []
      have hn : s.assign l.neg.var = none := by rw [Lit.neg_var]; exact val_none.1 hv
      have t1 : Tr true true db s db (s.assignDecision l.neg) := Tr.assignDecision h.rinv hn (fun _ => hokl)
      have h1 : KT (db, s.assignDecision l.neg) := ⟨t1.rinv, t1.dom h.dom, h.wt.assignDecision h.rinv.inv hr hn⟩
      have hx1 := decision_rel hx (l := l.neg) ⟨hokl.1, hokl.2.1⟩
      have hp := (propagateSandbox_sim hx1 h1.rg).1
      have hw := propagateSandbox_wtB h1.rinv h1.wt
      have hg := propagateSandbox_good h1.rinv
      have hq := fun db1 s1 => propagateSandbox_complete (db := db) (s := s.assignDecision l.neg) (db' := db1) (s' := s1) h1.rinv
      simp only [] at hp hw hg
      revert hp hw hg hq
      generalize propagateSandbox db (s.assignDecision l.neg) = r
      generalize propagateSandboxQ db _ = r'
      intro hp hw hg hq
      cases hp with
      | @ok db1 s1 x1 hp =>
        have t2 : Tr true true db (s.assignDecision l.neg) db1 s1 := hg.trn t1.rinv
        refine vivDecide_sim (fun m hm => (t1.trans t2).sp.okv.2 (hok m (by simp [hm]))) ⟨t2.rinv, t2.dom h1.dom, hw⟩ ?_ hp
        have := (hq db1 s1 rfl).2.2
        simp [Stk.remains]; omega
      | conflict hp => exact .conflict hp
      | panic => exact .panic
      | fuel => exact .fuel

theorem vivApply_sim {s : Stk} {x : QStk} {db : Cdb} {cid : Nat} {learnt : Bool} {vec : Cls} (hx : QRel s x) (hv : ∀ l ∈ vec, 1 ≤ l.var ∧ l.var ≤ s.numVars)
    (hlv : ∀ v, s.level v ≤ s.numVars) (hc : ∀ db1 rf, db.newClause s.level vec learnt = some (db1, rf) → okC db1 cid = true) :
    RRel DRel (vivApply (db, s) cid learnt vec) (vivApplyQ (db, x) cid learnt vec) := by
  have e1 : x.s.level = s.level := by rw [← hx.same]
  match vec, hv, hc with
  | [], _, _ => exact .unsat hx
  | [l], hv, _ => exact assignRootRes_sim hx _ (hv l (by simp))
  | a :: b :: tl, hv, hc =>
    unfold vivApply vivApplyQ
    simp only []
    rw [okRank_of hx hv hlv, ResQ.chk_true, e1]
    cases hn : db.newClause s.level (a :: b :: tl) learnt with
    | none => exact .panic
    | some z => exact removeRes_sim hx (hc z.1 z.2 hn)

/-- A conflict in the attempt to vivify a clause. -/
theorem vivConflict_sim {z : DS} {cid : Nat} {db1 : Cdb} {s1 : Stk} {x1 : QStk} {decs : List Lit} {l : Lit} {rs : Reason} (hz : KT z) (hlz : z.2.lim = [])
    (hrz : z.2.remains = false) (hne : (z.1.clause cid).lits ≠ []) (hvd : vivDecide (z.1.clause cid).lits [] z.1 z.2 = .conflict db1 s1 decs l rs) (hs : QRel s1 x1) :
    RRel DRel
      (match vivConflicting db1 cid (z.1.clause cid).lits decs l rs with
      | none => .panic
      | some none => .ok (db1, s1.backtrackSandbox)
      | some (some conf) =>
        match analyzeSandbox db1 s1 decs conf with
        | none => .panic
        | some vec => vivApply (db1, s1.backtrackSandbox) cid (z.1.clause cid).learnt vec)
      (vivConflictQ (z.1.clause cid).learnt (z.1.clause cid).lits cid db1 x1 decs l rs) := by
  have hdec0 : DecIn z.2 [] := by
    intro l hl h1; have := hz.rinv.inv.level_root hlz (tr_assigned (hz.rinv.inv.tv l hl)); omega
  have hg := vivDecide_good (k := true) (r := true) (c := (z.1.clause cid).lits) (ls := (z.1.clause cid).lits) (fun _ h => h) hz.rinv hdec0
    (by simp) (fun x hx => hz.dom.cl cid x hx)
  have hw := vivDecide_wt (ls := (z.1.clause cid).lits) (decs := []) hz.rinv hz.wt hrz (by simp)
  have hsame := vivDecide_same hz.rinv hvd
  rw [hvd] at hg hw
  obtain ⟨t1, hco, hde, hdc, hlim⟩ := hg
  obtain ⟨w1, w2⟩ := hw
  have hb : BI db1 s1 := ⟨t1.rinv, t1.dom hz.dom, fun w => True ∨ s1.dl ≤ s1.level w.var, w1⟩
  have hin := hb.inBounds
  have gs := Gs.of hin t1.rinv.inv hb.dom
  unfold vivConflictQ
  have hrc : rootC db1 x1 rs = true := by
    cases rs with
    | impl ci =>
      obtain ⟨⟨rest, e⟩, -⟩ := hco
      have hne : (db1.clause ci).lits ≠ [] := by rw [e]; simp
      simp only [rootC, okC_wf t1.rinv.wf hne, Bool.true_and]
      exact okLits_of hs fun m hm => gs.rg.cl ci m hm
    | _ => rfl
  rw [hrc, ResQ.chk_true]
  obtain ⟨x2, e2, hx2⟩ := hs.backtrackSandbox
  cases hcf : vivConflicting db1 cid (z.1.clause cid).lits decs l rs with
  | none => exact .panic
  | some o =>
    cases o with
    | none => simp only []; rw [e2]; exact .ok ⟨rfl, hx2⟩
    | some conf =>
      simp only []
      have hconf : ∀ m ∈ conf, 1 ≤ m.var ∧ m.var ≤ s1.numVars := by
        unfold vivConflicting at hcf
        cases rs with
        | binary m =>
          obtain ⟨⟨i, hc⟩, -⟩ := hco
          have h1 : l ∈ (db1.clause i).lits := by rcases hc with e | e <;> rw [e] <;> simp
          have h2 : m.neg ∈ (db1.clause i).lits := by rcases hc with e | e <;> rw [e] <;> simp
          simp only [] at hcf
          split at hcf
          · cases hcf
          · cases hcf
            intro q hq
            simp only [List.mem_cons, List.not_mem_nil, or_false] at hq
            rcases hq with rfl | rfl
            · exact gs.rg.cl i _ h1
            · exact gs.rg.cl i _ h2
        | impl ci =>
          simp only [] at hcf
          split at hcf
          · cases hcf
          · cases hcf; exact fun m hm => gs.rg.cl ci m hm
        | _ => exact hco.elim
      rw [okLits_of hs hconf, ResQ.chk_true]
      have e3 : x1.s.trail = s1.trail := by rw [← hs.same]
      have e4 : x1.s.lim = s1.lim := by rw [← hs.same]
      rw [e3, e4, sweepC_eq hs gs decs _ _ fun l hl => List.mem_of_mem_drop (List.mem_reverse.1 hl)]
      unfold analyzeSandbox
      cases hv : sandboxSweep db1 s1 decs (s1.trail.drop (s1.lim.getD 0 0)).reverse (fun v => decide (v ∈ conf.map Lit.var)) with
      | none => exact .panic
      | some vec =>
        simp only []
        rw [e2, ResQ.lift_some]
        obtain ⟨a2, a3⟩ := sweep_sub hv
        have t2 : Tr true true db1 s1 db1 s1.backtrackSandbox := Tr.backtrackSandbox t1.rinv
        have hnv : s1.backtrackSandbox.numVars = s1.numVars := t2.sp.numVars
        refine vivApply_sim hx2 ?_ (t2.dom hb.dom).lv ?_
        · intro q hq
          rw [hnv]
          have := tr_assigned (w2 _ (a2 q hq)).1
          exact gs.as _ this
        · intro db2 rf hn
          have hnd : (vec.map Lit.var).Nodup := by
            refine a3.nodup ?_
            rw [List.map_reverse, List.nodup_reverse]
            exact t1.rinv.inv.nd.sublist ((List.drop_sublist _ _).map _)
          have hne1 : (db1.clause cid).lits ≠ [] := by
            intro e
            have := (hsame.perm cid).length_eq
            rw [e] at this
            exact hne (List.length_eq_zero_iff.1 this.symm)
          obtain ⟨w, hcase⟩ := Cdb.newClause_spec t2.rinv.wf hnd hn
          refine okC_wf w ?_
          rcases hcase with ⟨j, a, b, -, rfl, -⟩ | ⟨j, c, -, -, -, hj, hc, h2, -, -, -, hcl, -⟩
          · exact hne1
          · rw [hcl]
            by_cases e : cid = j
            · subst e; exact absurd hj hne1
            · rw [upd_of_ne _ _ e]; exact hne1

theorem vivOne_sim {x : DS} {y : DQ} {cid : Nat} (h : KT x) (hy : DRel x y) : RRel DRel (vivOne x cid) (vivOneQ y cid) := by
  obtain ⟨db, s⟩ := x
  obtain ⟨db', x⟩ := y
  obtain ⟨rfl, hx⟩ := hy
  simp only [] at hx
  unfold vivOne vivOneQ
  simp only []
  have t0 : Tr true true db' s db' s.backtrackSandbox := Tr.backtrackSandbox h.rinv
  have h0 : KT (db', s.backtrackSandbox) := ⟨t0.rinv, t0.dom h.dom, h.wt.backtrackSandbox' h.rinv.inv⟩
  obtain ⟨x0, e0, hx0⟩ := hx.backtrackSandbox
  rw [e0, ResQ.lift_some]
  refine (propRemains_sim (x := (db', s.backtrackSandbox)) (y := (db', x0)) h0 ⟨rfl, hx0⟩).bind fun z w ez hzw => ?_
  obtain ⟨hz, hlz, hrz⟩ := kw_propRemains h0 (backtrackSandbox_lim _) ez
  rw [hzw.db]
  split
  · exact .ok hzw
  rename_i hdead
  have hne : (z.1.clause cid).lits ≠ [] := by simpa [Cl.dead] using hdead
  rw [okC_wf hz.rinv.wf hne, ResQ.chk_true]
  have hs := vivDecide_sim (ls := (z.1.clause cid).lits) (decs := []) (fun x hx => hz.dom.cl cid x hx) hz hrz hzw.rel
  have hcf := fun db1 s1 x1 decs l rs => vivConflict_sim (z := z) (cid := cid) (db1 := db1) (s1 := s1) (x1 := x1) (decs := decs) (l := l) (rs := rs) hz hlz hrz hne
  revert hs hcf
  generalize vivDecide (z.1.clause cid).lits [] z.1 z.2 = r
  generalize vivDecideQ (z.1.clause cid).lits [] z.1 w.2 = r'
  intro hs hcf
  cases hs with
  | done hs => exact .ok ⟨rfl, hs⟩
  | panic => exact .panic
  | fuel => exact .fuel
  | @conflict db1 s1 x1 decs l rs hs => exact hcf db1 s1 x1 decs l rs rfl hs

theorem vivLoop_sim : ∀ {cids : List Nat} {x : DS} {y : DQ}, KT x → DRel x y → RRel DRel (vivLoop cids x) (vivLoopQ cids y)
  | [], x, y, _, hy => .ok hy
  | cid :: cids, x, y, h, hy => by
    unfold vivLoop vivLoopQ
    exact (vivOne_sim h hy).bind fun a b ea hab => vivLoop_sim (kw_vivOne h ea) hab

theorem vivify_sim {targets : List Nat} {x : DS} {y : DQ} (h : KT x) (hl : x.2.lim = []) (hy : DRel x y) : RRel DRel (vivify targets x) (vivifyQ targets y) := by
  unfold vivify vivifyQ
  refine (propRemains_sim h hy).bind fun a b ea hab => ?_
  obtain ⟨ha, hla, -⟩ := kw_propRemains h hl ea
  split
  · exact .ok hab
  refine (vivLoop_sim ha hab).bind fun c d ec hcd => ?_
  have hc := kw_vivLoop ha ec
  obtain ⟨x0, e0, hx0⟩ := hcd.rel.backtrackSandbox
  rw [e0, ResQ.lift_some]
  have t0 : Tr true true c.1 c.2 c.1 c.2.backtrackSandbox := Tr.backtrackSandbox hc.rinv
  have h0 : KT (c.1, c.2.backtrackSandbox) := ⟨t0.rinv, t0.dom hc.dom, hc.wt.backtrackSandbox' hc.rinv.inv⟩
  refine (propRemains_sim (x := (c.1, c.2.backtrackSandbox)) (y := (d.1, x0)) h0 ⟨hcd.db, hx0⟩).bind fun u v eu huv => ?_
  obtain ⟨hu, hlu, -⟩ := kw_propRemains h0 (backtrackSandbox_lim _) eu
  exact clearAsserted_sim hu hlu huv

end Splr
