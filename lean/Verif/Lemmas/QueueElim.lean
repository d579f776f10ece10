import Verif.Lemmas.QueueRoot
/-! # The array queue: the eliminator -/
namespace Splr
open Stk QStk

/-- The same database and eliminator, and the trails agree. -/
structure ERel (x : DS × El) (y : DQ × El) : Prop where
  d : DRel x.1 y.1
  e : y.2 = x.2

theorem dropClause_sim {x : DS} {y : DQ} {e : El} {cid : Nat} (hy : DRel x y) (hw : x.1.WF) (hr : ∀ l ∈ (x.1.clause cid).lits, 1 ≤ l.var ∧ l.var ≤ x.2.numVars)
    (hne : (x.1.clause cid).lits ≠ []) : RRel ERel (dropClause x e cid) (QStk.dropClauseQ y e cid) := by
  obtain ⟨db, s⟩ := x
  obtain ⟨db', x⟩ := y
  obtain ⟨rfl, hx⟩ := hy
  simp only [] at hx hw hr hne
  have e1 : x.s.assign = s.assign := by rw [← hx.same]
  unfold dropClause QStk.dropClauseQ QStk.read
  rw [okC_wf hw hne, okLits_of hx hr, Bool.and_self, ResQ.chk_true]
  unfold dropClause Cdb.removeRes
  simp only [e1]
  cases (db'.setLinked cid false).removeClause cid with
  | none => exact .panic
  | some d => exact .ok ⟨⟨rfl, hx⟩, rfl⟩

theorem trySubsume_sim {x : DS} {y : DQ} {e : El} {cid did : Nat} (hy : DRel x y) (hw : x.1.WF) (hd : Dom x.1 x.2) (hc : (x.1.clause cid).lits ≠ [])
    (hne : (x.1.clause did).lits ≠ []) : RRel ERel (trySubsume x e cid did) (QStk.trySubsumeQ y e cid did) := by
  obtain ⟨db, s⟩ := x
  obtain ⟨db', x⟩ := y
  obtain ⟨rfl, hx⟩ := hy
  simp only [] at hx hw hd hne hc
  have e1 : x.s.assign = s.assign := by rw [← hx.same]
  unfold trySubsume QStk.trySubsumeQ QStk.read
  rw [okC_wf hw hne, okC_wf hw hc, okLits_of hx fun l hl => ⟨(hd.cl did l hl).1, (hd.cl did l hl).2.1⟩, Bool.and_self, Bool.and_self, ResQ.chk_true]
  unfold trySubsume
  simp only []
  by_cases hs : subsumes (db'.clause cid).lits (db'.clause did).lits = true
  · simp only [if_pos hs]
    unfold dropClause Cdb.removeRes
    simp only [e1]
    generalize (if (db'.clause did).learnt = true then db' else db'.setC cid { db'.clause cid with learnt := false }) = d0
    cases (d0.setLinked did false).removeClause did with
    | none => exact .panic
    | some d => exact .ok ⟨⟨rfl, hx⟩, rfl⟩
  · simp only [if_neg hs]
    exact .ok ⟨⟨rfl, hx⟩, rfl⟩

theorem Dom.range {db : Cdb} {s : Stk} (h : Dom db s) {i : Nat} {l : Lit} (hl : l ∈ (db.clause i).lits) : 1 ≤ l.var ∧ l.var ≤ s.numVars :=
  ⟨(h.cl i l hl).1, (h.cl i l hl).2.1⟩

theorem strengthen_sim {x : DS} {y : DQ} {e : El} {cid : Nat} {p : Lit} (hy : DRel x y) (hw : x.1.WF) (hd : Dom x.1 x.2) (hp : p ∈ (x.1.clause cid).lits) :
    RRel ERel (strengthen x e cid p) (QStk.strengthenQ y e cid p) := by
  obtain ⟨db, s⟩ := x
  obtain ⟨db', x⟩ := y
  obtain ⟨rfl, hx⟩ := hy
  simp only [] at hx hw hd hp
  have hne : (db'.clause cid).lits ≠ [] := List.ne_nil_of_mem hp
  obtain ⟨db1, rf, he, w, out, hk, hlr, -⟩ := Cdb.transformByElimination_spec hw hp
  unfold strengthen QStk.strengthenQ
  simp only []
  rw [okC_wf hw hne, okV_of hx (hd.range hp), Bool.and_self, ResQ.chk_true, he]
  cases out with
  | clause h h' hc => exact .ok ⟨⟨rfl, hx⟩, rfl⟩
  | registered reg a b h hr h' h3 hc =>
    exact dropClause_sim (x := (db1, s)) ⟨rfl, hx⟩ w (by simp only []; rw [h']; exact fun l hl => hd.range hl) (by simp only []; rw [h']; exact hne)
  | unit a h h' hc =>
    have ha : a ∈ (db'.clause cid).lits := by rcases h with h | h <;> rw [h] <;> simp
    simp only []
    have hw1 : (db1.log (.add [a])).WF := Cdb.wf_lits w (fun _ => ⟨rfl, rfl⟩) rfl rfl rfl rfl rfl
    have hne1 : ((db1.log (.add [a])).clause cid).lits ≠ [] := by show (db1.clause cid).lits ≠ []; rw [h']; simp
    refine (dropClause_sim (x := (db1.log (.add [a]), s)) (y := (db1.log (.add [a]), x)) ⟨rfl, hx⟩ hw1 ?_ hne1).bind fun u v eu huv => ?_
    · show ∀ l ∈ (db1.clause cid).lits, _
      rw [h']
      intro l hl
      simp only [List.mem_cons, List.not_mem_nil, or_false] at hl
      rcases hl with rfl | rfl
      · exact hd.range ha
      · exact hd.range hp
    · obtain ⟨u', eu', dr, -⟩ := dropClause_spec (x := (db1.log (.add [a]), s)) (e := e) hw1 hne1
      rw [eu] at eu'
      cases eu'
      obtain ⟨⟨ud, us⟩, ue⟩ := u
      obtain ⟨⟨vd, vx⟩, ve⟩ := v
      obtain ⟨⟨rfl, h1⟩, rfl⟩ := huv
      have := dr.stk
      simp only [] at this h1
      subst this
      have e2 : vx.s.val = us.val := by rw [← h1.same]; rfl
      simp only []
      rw [okV_of h1 (hd.range ha), ResQ.chk_true, e2]
      cases us.val a with
      | none => exact (assignRootRes_sim h1 _ (hd.range ha)).bind fun c d _ hcd => .ok ⟨hcd, rfl⟩
      | some b =>
        cases b with
        | true => exact .ok ⟨⟨rfl, h1⟩, rfl⟩
        | false => exact .unsat h1

theorem tryLifted_sim {x : DS} {y : DQ} {e : El} {l : Lit} {did : Nat} (hy : DRel x y) (hw : x.1.WF) (hd : Dom x.1 x.2) (hne : (x.1.clause did).lits ≠ []) :
    RRel ERel (tryLifted x e l did) (QStk.tryLiftedQ y e l did) := by
  unfold tryLifted QStk.tryLiftedQ
  rw [hy.db, okC_wf hw hne, ResQ.chk_true]
  split
  · rename_i hm; exact strengthen_sim hy hw hd hm
  · exact .ok ⟨hy, rfl⟩

theorem resolveOne_sim {evo v p n : Nat} {y : DS × El} {z : DQ × El} (hz : ERel y z) (hw : y.1.1.WF) (hd : Dom y.1.1 y.1.2)
    (hp : (y.1.1.clause p).lits ≠ []) (hn : (y.1.1.clause n).lits ≠ []) : RRel ERel (resolveOne evo v p n y) (QStk.resolveOneQ evo v p n z) := by
  obtain ⟨⟨db, s⟩, e⟩ := y
  obtain ⟨⟨db', x⟩, e'⟩ := z
  obtain ⟨⟨rfl, hx⟩, rfl⟩ := hz
  simp only [] at hx hw hd hp hn
  have e1 : x.s.val = s.val := by rw [← hx.same]; rfl
  have e2 : x.s.level = s.level := by rw [← hx.same]
  have e3 : x.s.elim = s.elim := by rw [← hx.same]
  have hm : ∀ l ∈ mergeLits v (db'.clause p).lits (db'.clause n).lits, 1 ≤ l.var ∧ l.var ≤ s.numVars := fun l hl =>
    (mem_mergeLits hl).elim (fun h => hd.range h) fun h => hd.range h
  unfold resolveOne QStk.resolveOneQ
  simp only []
  rw [okC_wf hw hp, okC_wf hw hn, okLits_of hx fun l hl => hd.range hl, okLits_of hx fun l hl => hd.range hl]
  simp only [Bool.and_self, ResQ.chk_true, e1, e2]
  revert hm
  generalize mergeLits v (db'.clause p).lits (db'.clause n).lits = vec
  intro hm
  match vec, hm with
  | [], _ => exact .ok ⟨⟨rfl, hx⟩, rfl⟩
  | [l], hm =>
    simp only []
    cases s.val l with
    | none => exact (assignRootRes_sim hx _ (hm l (by simp))).bind fun c d _ hcd => .ok ⟨hcd, rfl⟩
    | some b =>
      cases b with
      | true => exact .ok ⟨⟨rfl, hx⟩, rfl⟩
      | false => exact .unsat hx
  | a :: b :: tl, hm =>
    simp only []
    rw [okRank_of hx hm hd.lv, ResQ.chk_true]
    cases db'.newClause s.level (a :: b :: tl) ((db'.clause p).learnt && (db'.clause n).learnt) with
    | none => exact .panic
    | some w =>
      obtain ⟨db1, rf⟩ := w
      cases rf with
      | clause ci =>
        refine .ok ?_
        unfold addCid
        simp only [e3]
        split
        · exact ⟨⟨rfl, hx⟩, rfl⟩
        · exact ⟨⟨rfl, hx⟩, rfl⟩
      | _ => exact .ok ⟨⟨rfl, hx⟩, rfl⟩

theorem resolveAll_sim {evo v : Nat} {db0 : Cdb} {e0 : El} (hw0 : db0.WF) : ∀ {ps : List (Nat × Nat)} {y : DS × El} {z : DQ × El}, ERel y z →
    RInv y.1.1 y.1.2 → Dom y.1.1 y.1.2 → RKept db0 v e0 y → (∀ q ∈ ps, ⟨v, true⟩ ∈ (db0.clause q.1).lits ∧ ⟨v, false⟩ ∈ (db0.clause q.2).lits) →
    RRel ERel (resolveAll evo v ps y) (QStk.resolveAllQ evo v ps z)
  | [], y, z, hz, _, _, _, _ => .ok hz
  | (p, n) :: ps, y, z, hz, hi, hd, hk, hps => by
    unfold resolveAll QStk.resolveAllQ
    have hpn := hps (p, n) (by simp)
    have n1 : (db0.clause p).lits ≠ [] := List.ne_nil_of_mem hpn.1
    have n2 : (db0.clause n).lits ≠ [] := List.ne_nil_of_mem hpn.2
    have h1 := rg_resolveOne (r := true) (evo := evo) hi hd hw0 hk hpn.1 hpn.2
    refine (resolveOne_sim hz hi.wf hd (by rw [(hk.keep p n1).1]; exact n1) (by rw [(hk.keep n n2).1]; exact n2)).bind fun a b ea hab => ?_
    rw [ea] at h1
    obtain ⟨t, hk', -⟩ := h1
    exact resolveAll_sim hw0 hab t.rinv (t.dom hd) hk' fun q hq => hps q (by simp [hq])

theorem dropAll_sim : ∀ {cids : List Nat} {y : DS × El} {z : DQ × El}, ERel y z → y.1.1.WF → (∀ i, ∀ l ∈ (y.1.1.clause i).lits, 1 ≤ l.var ∧ l.var ≤ y.1.2.numVars) →
    RRel ERel (dropAll cids y) (QStk.dropAllQ cids z)
  | [], y, z, hz, _, _ => .ok hz
  | c :: cids, y, z, hz, hw, hr => by
    unfold dropAll QStk.dropAllQ
    rw [hz.d.db]
    split
    · exact dropAll_sim hz hw hr
    rename_i hdead
    have hne : (y.1.1.clause c).lits ≠ [] := by simpa [Cl.dead] using hdead
    rw [hz.e]
    refine (dropClause_sim hz.d hw (hr c) hne).bind fun a b ea hab => ?_
    obtain ⟨a', ea', dr, -⟩ := dropClause_spec (x := y.1) (e := y.2) hw hne
    rw [ea] at ea'
    cases ea'
    refine dropAll_sim hab dr.wf fun i l hl => ?_
    rw [dr.stk]
    by_cases e : i = c
    · subst e; rw [dr.gone] at hl; simp at hl
    · rw [dr.keep i e] at hl; exact hr i l hl

theorem eliminateVar_sim {evo v : Nat} {x : DS} {y : DQ} {e : El} (hy : DRel x y) (hi : RInv x.1 x.2) (hdm : Dom x.1 x.2) (hl : x.2.lim = [])
    (ho : OccInv e x.1 x.2) (hn : x.2.assign v = none) (hab : e.aborted v = false) (hv : 1 ≤ v ∧ v ≤ x.2.numVars) :
    RRel ERel (eliminateVar evo v x e) (QStk.eliminateVarQ evo v y e) := by
  obtain ⟨db0, s⟩ := x
  obtain ⟨db, x⟩ := y
  obtain ⟨rfl, hx⟩ := hy
  simp only [] at hx hi hdm hl ho hn hv
  unfold eliminateVar QStk.eliminateVarQ
  simp only []
  set pos := (e.pos v).filter fun c => decide (⟨v, true⟩ ∈ (db.clause c).lits) with hpos
  set neg := (e.neg v).filter fun c => decide (⟨v, false⟩ ∈ (db.clause c).lits) with hneg
  set pl := pos.map fun c => (db.clause c).lits with hpl
  set nl := neg.map fun c => (db.clause c).lits with hnl
  set e1 : El := { e with pos := upd e.pos v pos, neg := upd e.neg v neg, lits := e.lits ++ elimClauses v pl nl } with he1
  have hp : ∀ i, i ∈ pos ↔ ⟨v, true⟩ ∈ (db.clause i).lits := by
    intro i; rw [hpos, List.mem_filter]
    refine ⟨fun h => by simpa using h.2, fun h => ⟨?_, by simpa using h⟩⟩
    have := ho i ⟨v, true⟩ h hab
    simpa [El.occ] using this
  have hng : ∀ i, i ∈ neg ↔ ⟨v, false⟩ ∈ (db.clause i).lits := by
    intro i; rw [hneg, List.mem_filter]
    refine ⟨fun h => by simpa using h.2, fun h => ⟨?_, by simpa using h⟩⟩
    have := ho i ⟨v, false⟩ h hab
    simpa [El.occ] using this
  have ho1 : OccInv e1 db s := by
    intro i l hm hab'
    have h0 := ho i l hm hab'
    obtain ⟨w, b⟩ := l
    by_cases ew : w = v
    · subst ew
      cases b
      · have : i ∈ neg := (hng i).2 hm
        simpa [El.occ, he1] using this
      · have : i ∈ pos := (hp i).2 hm
        simpa [El.occ, he1] using this
    · simp only [El.occ, he1] at h0 ⊢
      rw [upd_of_ne _ _ ew, upd_of_ne _ _ ew]; exact h0
  have hk0 : RKept db v e1 ((db, s), e1) := ⟨hl, ho1, rfl, fun _ _ => ⟨rfl, rfl⟩, fun _ _ h _ => h, hn, fun _ _ => .inl rfl⟩
  have hps : ∀ q ∈ pos.flatMap fun p => neg.map fun n => (p, n), ⟨v, true⟩ ∈ (db.clause q.1).lits ∧ ⟨v, false⟩ ∈ (db.clause q.2).lits := by
    intro q hq
    obtain ⟨p, hpm, hq⟩ := List.mem_flatMap.1 hq
    obtain ⟨n, hnm, rfl⟩ := List.mem_map.1 hq
    exact ⟨(hp p).1 hpm, (hng n).1 hnm⟩
  have hra := rg_resolveAll (r := true) (evo := evo) (ps := pos.flatMap fun p => neg.map fun n => (p, n)) hi.wf (y := ((db, s), e1)) hi hdm hk0 hps
  have hchk : (pos ++ neg).all (okC db) = true := by
    rw [List.all_eq_true]
    intro c hc
    rcases List.mem_append.1 hc with hc | hc
    · exact okC_wf hi.wf (List.ne_nil_of_mem ((hp c).1 hc))
    · exact okC_wf hi.wf (List.ne_nil_of_mem ((hng c).1 hc))
  rw [hchk, ResQ.chk_true]
  refine (resolveAll_sim (y := ((db, s), e1)) (z := ((db, x), e1)) hi.wf ⟨⟨rfl, hx⟩, rfl⟩ hi hdm hk0 hps).bind fun a b ea hab => ?_
  rw [ea] at hra
  obtain ⟨t, hk, -, -⟩ := hra
  have hd1 := t.dom hdm
  refine (dropAll_sim hab t.rinv.wf fun i l hl => hd1.range hl).bind fun c d ec hcd => ?_
  obtain ⟨c', ec', dr⟩ := dropAll_spec (cids := pos ++ neg) t.rinv.wf hk.occ
  rw [ec] at ec'
  cases ec'
  have hnv : c.1.2.numVars = s.numVars := by rw [dr.stk]; exact t.sp.numVars
  obtain ⟨x', e', h'⟩ := hcd.d.rel.makeEliminated (v := v) (by rw [hnv]; exact hv)
  rw [e', ResQ.lift_some, hcd.e]
  exact .ok ⟨⟨hcd.d.db, h'⟩, rfl⟩

theorem KT.of {x : DS} (h : CE True x) (hd : Dom x.1 x.2) : KT x := ⟨⟨h.wf, h.inv⟩, hd, h.wt⟩

theorem runCmd_sim {F : Form} {s0 : Stk} {recs : List Rec} {evo : Nat} {y : DS × El} {z : DQ × El} (hz : ERel y z) (h : EOK F s0 recs y) (hc : CE True y.1)
    (c : ECmd) : RRel ERel (runCmd evo y c) (QStk.runCmdQ evo z c) := by
  obtain ⟨recs', g, hb, hl, ho, hh, hs, hnv⟩ := h
  obtain ⟨hd, he⟩ := hz
  have e1 : z.1.2.s.trail = y.1.2.trail := by rw [← hd.rel.same]
  have e2 : z.1.2.s.numVars = y.1.2.numVars := by rw [← hd.rel.same]
  have e3 : z.1.2.s.elim = y.1.2.elim := by rw [← hd.rel.same]
  have e4 : z.1.2.s.assign = y.1.2.assign := by rw [← hd.rel.same]
  cases c with
  | subsume cid did =>
    unfold runCmd QStk.runCmdQ
    simp only []
    rw [hd.db]
    split
    · exact .ok ⟨hd, he⟩
    · rename_i hc
      simp only [not_or, Cl.dead, List.isEmpty_iff] at hc
      rw [he]
      exact trySubsume_sim hd g.rinv.wf g.dom hc.2.1 hc.2.2
  | lifted l did =>
    unfold runCmd QStk.runCmdQ
    simp only []
    rw [hd.db, e1]
    split
    · exact .ok ⟨hd, he⟩
    · rename_i hc
      simp only [not_or, Cl.dead, List.isEmpty_iff] at hc
      rw [he]
      exact tryLifted_sim hd g.rinv.wf g.dom hc.2
  | elimVar v =>
    unfold runCmd QStk.runCmdQ
    simp only []
    rw [e2, e3, e4, he]
    split
    · exact .ok ⟨hd, he⟩
    · rename_i hc
      simp only [not_or, not_not, Bool.not_eq_true, not_lt] at hc
      exact eliminateVar_sim hd g.rinv g.dom hl ho hc.2.2.2.1 hc.2.2.2.2 ⟨by omega, hc.2.1⟩
  | propagate =>
    unfold runCmd QStk.runCmdQ
    exact (sandbox_sim (.of hc g.dom) hd).bind fun a b _ hab => .ok ⟨hab, he⟩
  | retain v sift =>
    unfold runCmd QStk.runCmdQ
    refine .ok ⟨hd, ?_⟩
    simp only []
    rw [hd.db, he]

theorem runCmds_sim {F : Form} {s0 : Stk} {recs : List Rec} {evo : Nat} : ∀ {cs : List ECmd} {y : DS × El} {z : DQ × El}, ERel y z → EOK F s0 recs y →
    CE True y.1 → RRel ERel (runCmds evo cs y) (QStk.runCmdsQ evo cs z)
  | [], y, z, hz, _, _ => .ok hz
  | c :: cs, y, z, hz, h, hc => by
    unfold runCmds QStk.runCmdsQ
    refine (runCmd_sim hz h hc c).bind fun a b ea hab => ?_
    have := runCmd_spec (evo := evo) h c
    rw [ea] at this
    exact runCmds_sim hab this (ce_runCmd (.inl trivial) hc ea)

theorem simplify_sim {F : Form} {s0 : Stk} {recs : List Rec} {evo : Nat} {cmds : List ECmd} {oom : Bool} {y : DS × El} {z : DQ × El} (hz : ERel y z)
    (h : EOK F s0 recs y) (hc : CE True y.1) : RRel ERel (simplify true evo cmds oom y) (QStk.simplifyQ true evo cmds oom z) := by
  unfold simplify QStk.simplifyQ
  rw [if_pos rfl, if_pos rfl]
  refine (runCmds_sim hz h hc).bind fun a b _ hab => ?_
  split
  · exact .err
  · exact .ok ⟨⟨by simp only []; rw [hab.d.db], hab.d.rel⟩, hab.e⟩

theorem simplify_sim' {evo : Nat} {cmds : List ECmd} {oom : Bool} {y : DS × El} {z : DQ × El} (hz : ERel y z) (h : KT y.1) :
    RRel ERel (simplify false evo cmds oom y) (QStk.simplifyQ false evo cmds oom z) := by
  unfold simplify QStk.simplifyQ
  rw [if_neg (by simp), if_neg (by simp)]
  refine (sandbox_sim h hz.d).bind fun a b _ hab => ?_
  split
  · exact .err
  · exact .ok ⟨hab, hz.e⟩

/-! ## the occurrence lists -/

theorem linkLoop_read {evo cnf : Nat} {s : Stk} {x : QStk} (hx : QRel s x) : ∀ (cids : List Nat) (db : Cdb) (e : El),
    (linkLoop evo cnf cids ((db, s), e) = .panic ∧ linkLoop evo cnf cids ((db, x.s), e) = .panic) ∨
      ∃ d e', linkLoop evo cnf cids ((db, s), e) = .ok ((d, s), e') ∧ linkLoop evo cnf cids ((db, x.s), e) = .ok ((d, x.s), e')
  | [], db, e => .inr ⟨db, e, rfl, rfl⟩
  | cid :: cids, db, e => by
    have e3 : x.s.elim = s.elim := by rw [← hx.same]
    unfold linkLoop
    simp only []
    split
    · exact linkLoop_read hx cids db e
    split
    · exact .inl ⟨rfl, rfl⟩
    · unfold addCid
      simp only [e3]
      split
      · exact linkLoop_read hx cids db e
      · exact linkLoop_read hx cids _ _

theorem prepare_sim {enable : Bool} {evo cnf : Nat} {x : DS} {y : DQ} (hy : DRel x y) :
    RRel ERel (prepare enable evo cnf x) (y.2.read fun s => prepare enable evo cnf (y.1, s)) := by
  obtain ⟨db0, s⟩ := x
  obtain ⟨db, x⟩ := y
  obtain ⟨rfl, hx⟩ := hy
  simp only [] at hx
  have e2 : x.s.numVars = s.numVars := by rw [← hx.same]
  have e3 : x.s.elim = s.elim := by rw [← hx.same]
  have e4 : x.s.assign = s.assign := by rw [← hx.same]
  unfold QStk.read prepare
  simp only [e2, e3, e4]
  split
  · exact .ok ⟨⟨rfl, hx⟩, rfl⟩
  rcases linkLoop_read (evo := evo) (cnf := cnf) hx db.ids db El.new with ⟨a, b⟩ | ⟨d, e', a, b⟩
  · rw [a, b]; exact .panic
  · rw [a, b]
    simp only [Res.bind]
    split
    · exact .panic
    · exact .ok ⟨⟨rfl, hx⟩, rfl⟩

theorem pureLoop_sim {cnf : Nat} {e : El} {nv : Nat} : ∀ {n vi : Nat} {x : DS} {y : DQ}, DRel x y → x.2.lim = [] → x.2.numVars = nv → 1 ≤ vi → vi + n ≤ nv + 1 →
    RRel DRel (pureLoop cnf e n vi x) (QStk.pureLoopQ cnf e n vi y)
  | 0, _, _, _, hy, _, _, _, _ => .ok hy
  | n + 1, vi, x, y, hy, hl, hnv, h1, h2 => by
    have e4 : y.2.s.assign = x.2.assign := by rw [← hy.rel.same]
    have hv : ∀ b, 1 ≤ (⟨vi, b⟩ : Lit).var ∧ (⟨vi, b⟩ : Lit).var ≤ x.2.numVars := fun b => ⟨h1, by simp only []; omega⟩
    have hass : ∀ b (d : Cdb), RRel DRel ((x.2.assignRootRes d ⟨vi, b⟩).bind (pureLoop cnf e n (vi + 1)))
        ((y.2.assignRootResQ d ⟨vi, b⟩).bind (QStk.pureLoopQ cnf e n (vi + 1))) := by
      intro b d
      refine (assignRootRes_sim hy.rel d (hv b)).bind fun a c ea hac => ?_
      have hs : a.2.numVars = x.2.numVars ∧ a.2.lim = [] := by
        unfold Stk.assignRootRes at ea
        split at ea
        · rename_i s1 he
          cases ea
          unfold Stk.assignRoot at he
          rw [cancelUntil_noop (by unfold Stk.dl; rw [hl]; simp)] at he
          simp only [] at he
          split at he
          · cases he; exact ⟨rfl, hl⟩
          · simp only [Prod.mk.injEq] at he
            rw [← he.1]; exact ⟨rfl, hl⟩
        · cases ea
      exact pureLoop_sim hac hs.2 (hs.1.trans hnv) (by omega) (by omega)
    unfold pureLoop QStk.pureLoopQ
    rw [okV_of hy.rel (hv true), ResQ.chk_true, e4, hy.db]
    split
    · exact pureLoop_sim hy hl hnv (by omega) (by omega)
    split
    · exact .panic
    split
    · exact pureLoop_sim hy hl hnv (by omega) (by omega)
    split
    · exact hass true _
    split
    · exact hass false _
    · exact pureLoop_sim hy hl hnv (by omega) (by omega)

end Splr
