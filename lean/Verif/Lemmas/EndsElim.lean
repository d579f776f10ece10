import Verif.Lemmas.EndsRoot
import Verif.Lemmas.ElimGlob
/-! Nothing panics and all loops end: the eliminator. -/
namespace Splr
open Stk

theorem linkLoop_ends {evo cnf : Nat} : ∀ {cids : List Nat} {y : DS × El}, (∀ i, ∀ l ∈ (y.1.1.clause i).lits, l.var ≤ cnf) →
    (linkLoop evo cnf cids y).Ends
  | [], _, _ => trivial
  | cid :: cids, y, h => by
    unfold linkLoop
    split
    · exact linkLoop_ends h
    split
    · rename_i ha
      rw [List.any_eq_true] at ha
      obtain ⟨l, hl, hc⟩ := ha
      have := h cid l hl
      simp at hc; omega
    · refine linkLoop_ends fun i l hl => ?_
      rw [(flags_addCid evo y.1 y.2 cid).lits] at hl
      exact h i l hl

theorem prepare_ends {en : Bool} {evo cnf : Nat} {x : DS} (hd : Dom x.1 x.2) (hc : x.2.numVars ≤ cnf) : (prepare en evo cnf x).Ends := by
  unfold prepare
  split
  · trivial
  refine (linkLoop_ends fun i l hl => Nat.le_trans (hd.cl i l hl).2.1 hc).bind fun y _ => ?_
  split
  · rename_i ha
    rw [List.any_eq_true] at ha
    obtain ⟨i, hi, hh⟩ := ha
    simp at hi hh
    omega
  · trivial

theorem dropClause_ends {x : DS} {e : El} {cid : Nat} (hw : x.1.WF) (hne : (x.1.clause cid).lits ≠ []) : (dropClause x e cid).Ends := by
  obtain ⟨y, hy, -⟩ := dropClause_spec (e := e) hw hne
  rw [hy]; trivial

theorem trySubsume_ends {x : DS} {e : El} {cid did : Nat} (hw : x.1.WF) (hd : (x.1.clause did).lits ≠ []) : (trySubsume x e cid did).Ends := by
  unfold trySubsume
  split
  swap
  · trivial
  have hf : Cdb.Flags x.1 (if (x.1.clause did).learnt = true then x.1 else x.1.setC cid { x.1.clause cid with learnt := false }) := by
    split
    · exact .refl _
    · exact flags_setC rfl (by simp) rfl
  exact dropClause_ends (x := (_, x.2)) (hf.wf hw) (by simp only []; rw [hf.lits]; exact hd)

theorem strengthen_ends {x : DS} {e : El} {cid : Nat} {p : Lit} (hw : x.1.WF) (hp : p ∈ (x.1.clause cid).lits) : (strengthen x e cid p).Ends := by
  have hne : (x.1.clause cid).lits ≠ [] := List.ne_nil_of_mem hp
  obtain ⟨db1, rf, he, w, out, hk, hlr, -⟩ := Cdb.transformByElimination_spec hw hp
  unfold strengthen
  rw [he]
  cases out with
  | clause h h' hc => trivial
  | registered reg a b h hr h' h3 hc => exact dropClause_ends (x := (db1, x.2)) w (by simp only []; rw [h']; exact hne)
  | unit a h h' hc =>
    refine (dropClause_ends (x := (db1.log (.add [a]), x.2)) (Cdb.wf_lits w (fun _ => ⟨rfl, rfl⟩) rfl rfl rfl rfl rfl) ?_).bind fun y _ => ?_
    · show (db1.clause cid).lits ≠ []; rw [h']; simp
    · split
      · exact assignRootRes_ends.bind fun _ _ => trivial
      · trivial
      · trivial

theorem tryLifted_ends {x : DS} {e : El} {l : Lit} {did : Nat} (hw : x.1.WF) : (tryLifted x e l did).Ends := by
  unfold tryLifted
  split
  · rename_i h; exact strengthen_ends hw h
  · trivial

theorem resolveOne_ends {evo v p n : Nat} {y : DS × El} : (resolveOne evo v p n y).Ends := by
  unfold resolveOne
  simp only []
  split
  · trivial
  · split
    · trivial
    · trivial
    · exact assignRootRes_ends.bind fun _ _ => trivial
  · rename_i h0 h1
    have h2 : 2 ≤ (mergeLits v (y.1.1.clause p).lits (y.1.1.clause n).lits).length := by
      rcases hm : mergeLits v (y.1.1.clause p).lits (y.1.1.clause n).lits with _ | ⟨a, _ | ⟨b, tl⟩⟩
      · exact absurd hm h0
      · exact absurd hm (h1 a)
      · simp
    obtain ⟨db1, rf, e⟩ := newClause_ends (db := y.1.1) (level := y.1.2.level) (learnt := (y.1.1.clause p).learnt && (y.1.1.clause n).learnt) h2
    rw [e]
    split
    · simp_all
    · trivial
    · trivial

theorem resolveAll_ends {evo v : Nat} : ∀ {ps : List (Nat × Nat)} {y : DS × El}, (resolveAll evo v ps y).Ends
  | [], _ => trivial
  | (p, n) :: ps, y => by
    unfold resolveAll
    exact resolveOne_ends.bind fun _ _ => resolveAll_ends

theorem eliminateVar_ends {evo v : Nat} {db : Cdb} {s : Stk} {e : El} (hi : RInv db s) (hdm : Dom db s) (hl : s.lim = []) (ho : OccInv e db s)
    (hn : s.assign v = none) (hab : e.aborted v = false) : (eliminateVar evo v (db, s) e).Ends := by
  unfold eliminateVar
  simp only []
  set pos := (e.pos v).filter fun c => decide (⟨v, true⟩ ∈ (db.clause c).lits) with hpos
  set neg := (e.neg v).filter fun c => decide (⟨v, false⟩ ∈ (db.clause c).lits) with hneg
  set pl := pos.map fun c => (db.clause c).lits with hpl
  set nl := neg.map fun c => (db.clause c).lits with hnl
  set e1 : El := { e with pos := upd e.pos v pos, neg := upd e.neg v neg, lits := e.lits ++ elimClauses v pl nl } with he1
  have hp : ∀ i, i ∈ pos ↔ ⟨v, true⟩ ∈ (db.clause i).lits := by
    intro i; rw [hpos, List.mem_filter]
    refine ⟨fun h => by simpa using h.2, fun h => ⟨?_, by simpa using h⟩⟩
    have := ho i ⟨v, true⟩ h hab
    simpa [El.occ] using this
  have hng : ∀ i, i ∈ neg ↔ ⟨v, false⟩ ∈ (db.clause i).lits := by
    intro i; rw [hneg, List.mem_filter]
    refine ⟨fun h => by simpa using h.2, fun h => ⟨?_, by simpa using h⟩⟩
    have := ho i ⟨v, false⟩ h hab
    simpa [El.occ] using this
  have ho1 : OccInv e1 db s := by
    intro i l hm hab'
    have h0 := ho i l hm hab'
    obtain ⟨w, b⟩ := l
    by_cases ew : w = v
    · subst ew
      cases b
      · have : i ∈ neg := (hng i).2 hm
        simpa [El.occ, he1] using this
      · have : i ∈ pos := (hp i).2 hm
        simpa [El.occ, he1] using this
    · simp only [El.occ, he1] at h0 ⊢
      rw [upd_of_ne _ _ ew, upd_of_ne _ _ ew]; exact h0
  have hk0 : RKept db v e1 ((db, s), e1) := ⟨hl, ho1, rfl, fun _ _ => ⟨rfl, rfl⟩, fun _ _ h _ => h, hn, fun _ _ => .inl rfl⟩
  have hra := rg_resolveAll (r := true) (evo := evo) (ps := pos.flatMap fun p => neg.map fun n => (p, n)) hi.wf (y := ((db, s), e1)) hi hdm hk0 (by
    intro q hq
    obtain ⟨p, hpm, hq⟩ := List.mem_flatMap.1 hq
    obtain ⟨n, hnm, rfl⟩ := List.mem_map.1 hq
    exact ⟨(hp p).1 hpm, (hng n).1 hnm⟩)
  refine resolveAll_ends.bind fun u hr => ?_
  rw [hr] at hra
  obtain ⟨t, hk, -, hres⟩ := hra
  obtain ⟨z, hz, hd⟩ := dropAll_spec (cids := pos ++ neg) t.rinv.wf hk.occ
  rw [hz]
  trivial

theorem EOK.rd {F : Form} {s0 : Stk} {recs : List Rec} {y : DS × El} (h : EOK F s0 recs y) (hf : Few s0) : RD y.1 := by
  obtain ⟨recs', g, -, -, -, -, -, hnv⟩ := h
  exact ⟨g.rinv, g.dom, by unfold Few at *; rw [hnv]; exact hf⟩

theorem runCmd_ends {F : Form} {s0 : Stk} {recs : List Rec} {evo : Nat} {y : DS × El} (h : EOK F s0 recs y) (hf : Few s0) (c : ECmd) :
    (runCmd evo y c).Ends := by
  have hr := h.rd hf
  obtain ⟨recs', g, hb, hl, ho, hh, hs, hnv⟩ := h
  cases c with
  | subsume cid did =>
    unfold runCmd
    simp only []
    split
    · trivial
    · rename_i hc
      simp only [not_or, Cl.dead, List.isEmpty_iff] at hc
      exact trySubsume_ends g.rinv.wf hc.2.2
  | lifted l did =>
    unfold runCmd
    simp only []
    split
    · trivial
    · exact tryLifted_ends g.rinv.wf
  | elimVar v =>
    unfold runCmd
    simp only []
    split
    · trivial
    · rename_i hc
      simp only [not_or, not_not, Bool.not_eq_true, not_lt] at hc
      exact eliminateVar_ends g.rinv g.dom hl ho hc.2.2.2.1 hc.2.2.2.2
  | propagate => exact (propagateRes_ends hr).bind fun _ _ => trivial
  | retain v sift => trivial

theorem runCmds_ends {F : Form} {s0 : Stk} {recs : List Rec} {evo : Nat} (hf : Few s0) : ∀ {cs : List ECmd} {y : DS × El}, EOK F s0 recs y →
    (runCmds evo cs y).Ends
  | [], _, _ => trivial
  | c :: cs, y, h => by
    unfold runCmds
    refine (runCmd_ends h hf c).bind fun z ez => ?_
    have := runCmd_spec (evo := evo) h c
    rw [ez] at this
    exact runCmds_ends hf this

theorem simplify_ends {F : Form} {s0 : Stk} {recs : List Rec} {evo : Nat} {cmds : List ECmd} {oom : Bool} {y : DS × El} (h : EOK F s0 recs y)
    (hf : Few s0) : (simplify true evo cmds oom y).Ends := by
  unfold simplify
  rw [if_pos rfl]
  refine (runCmds_ends hf h).bind fun z _ => ?_
  split <;> trivial

theorem simplify_ends' {evo : Nat} {cmds : List ECmd} {oom : Bool} {y : DS × El} (h : RD y.1) : (simplify false evo cmds oom y).Ends := by
  unfold simplify
  rw [if_neg (by simp)]
  refine (propagateRes_ends h).bind fun z _ => ?_
  split <;> trivial

end Splr
