import Verif.Lemmas.WatchRoot
import Verif.Lemmas.SolveSpec
/-! Watched literals and the eliminator. -/
namespace Splr
open Stk

/-- What holds between the steps of the eliminator; with `B`, only cached literals matter. -/
structure CE (B : Prop) (x : DS) : Prop where
  wf : x.1.WF
  inv : Inv x.1 x.2
  lim : x.2.lim = []
  wt : Wt (fun _ _ => B) x.1 x.2

theorem CE.rinv {B : Prop} {x : DS} (h : CE B x) : RInv x.1 x.2 := ⟨h.wf, h.inv⟩

/-- Only cached literals matter. -/
theorem Wt.ofCache {db : Cdb} {s : Stk} (hl : s.lim = []) (h : Cache db s) : Wt (fun _ _ => True) db s :=
  ⟨h, by rw [hl]; simp, fun _ _ _ _ h => (h trivial).elim⟩

theorem CE.flags {B : Prop} {db db' : Cdb} {s : Stk} (h : CE B (db, s)) (hf : Cdb.Flags db db') (hw : db'.watch = db.watch) : CE B (db', s) :=
  ⟨hf.wf h.wf, h.inv.root_db h.lim, h.lim, h.wt.dbEq hf.lits hw⟩

theorem ce_addCid {B : Prop} {evo cid : Nat} {x : DS} {e : El} (h : CE B x) : CE B (addCid evo x e cid).1 := by
  unfold addCid
  split
  · exact h
  · exact h.flags (flags_setLinked _ _ _) rfl

theorem ce_linkLoop {B : Prop} {evo cnf : Nat} : ∀ {cids : List Nat} {y y' : DS × El}, linkLoop evo cnf cids y = .ok y' → CE B y.1 → CE B y'.1
  | [], y, y', e, h => by simp only [linkLoop, Res.ok.injEq] at e; subst e; exact h
  | cid :: cids, y, y', e, h => by
    unfold linkLoop at e
    split at e
    · exact ce_linkLoop e h
    split at e
    · simp at e
    · exact ce_linkLoop e (ce_addCid h)

theorem ce_prepare {B : Prop} {enable : Bool} {evo cnf : Nat} {x : DS} {y : DS × El} (e : prepare enable evo cnf x = .ok y) (h : CE B x) : CE B y.1 := by
  unfold prepare at e
  split at e
  · cases e; exact h
  · obtain ⟨a, e1, e2⟩ := Res.bind_ok e
    split at e2
    · simp at e2
    · cases e2; exact ce_linkLoop e1 h

theorem CE.remove {B : Prop} {db : Cdb} {s : Stk} {cid : Nat} {y : DS} (h : CE B (db, s)) (e : db.removeRes s cid = .ok y) : CE B y := by
  obtain ⟨b1, b2⟩ := removeRes_ok e
  obtain ⟨d, s'⟩ := y
  simp only [] at b1 b2; subst b2
  exact ⟨(Cdb.removeClause_spec h.wf b1).1, h.inv.root_db h.lim, h.lim, h.wt.remove h.wf b1⟩

theorem ce_drop {B : Prop} {x : DS} {e : El} {cid : Nat} {y : DS × El} (h : CE B x) (e1 : dropClause x e cid = .ok y) : CE B y.1 := by
  unfold dropClause at e1
  obtain ⟨a, e2, e3⟩ := Res.bind_ok e1
  cases e3
  exact (CE.flags (db := x.1) (s := x.2) h (flags_setLinked _ _ _) rfl).remove e2

theorem ce_subsume {B : Prop} {x : DS} {e : El} {cid did : Nat} {y : DS × El} (h : CE B x) (e1 : trySubsume x e cid did = .ok y) : CE B y.1 := by
  unfold trySubsume at e1
  split at e1
  · refine ce_drop (x := (_, x.2)) ?_ e1
    split
    · exact h
    · exact CE.flags (db := x.1) (s := x.2) h (flags_setC rfl (by simp) rfl) rfl
  · cases e1; exact h

theorem ce_propagate {B : Prop} {x y : DS} (h : CE B x) (e : (propagateSandbox x.1 x.2).toRes = .ok y) : CE B y := by
  have hg := rg_propagate (k := true) (r := true) h.rinv h.lim
  have hw := propagateSandbox_wtB h.rinv h.wt
  cases hp : propagateSandbox x.1 x.2 with
  | ok db s =>
    rw [hp] at e hw hg
    cases e
    exact ⟨hg.1.rinv.wf, hg.1.rinv.inv, hg.2, hw⟩
  | _ => rw [hp] at e; simp [PRes.toRes] at e

theorem CE.assignRootRes {B : Prop} {db db0 : Cdb} {s : Stk} {l : Lit} {y : DS} (h : CE B (db, s)) (hf : Cdb.Flags db db0 ∨ ∃ r, db0 = db.log r)
    (hw : db0.watch = db.watch) (e : s.assignRootRes db0 l = .ok y) : CE B y := by
  have hk : ∀ i, (db0.clause i).lits = (db.clause i).lits := by
    rcases hf with hf | ⟨r, rfl⟩
    · exact hf.lits
    · exact fun _ => rfl
  have hwf : db0.WF := by
    rcases hf with hf | ⟨r, rfl⟩
    · exact hf.wf h.wf
    · exact Cdb.wf_lits h.wf (fun _ => ⟨rfl, rfl⟩) rfl rfl rfl rfl rfl
  obtain ⟨c1, c2⟩ := h.wt.assignRootRes h.inv h.lim hk hw e
  have hi : Inv db0 s := h.inv.root_db h.lim
  obtain ⟨d, s'⟩ := y
  simp only [] at c1; subst c1
  obtain ⟨i1, i2, -⟩ := hi.assignRoot noLow l
  unfold Stk.assignRootRes at e
  split at e
  · rename_i s1 heq
    rw [heq] at i1 i2
    simp only [Res.ok.injEq, Prod.mk.injEq] at e
    obtain ⟨-, rfl⟩ := e
    exact ⟨hwf, i1, i2, c2⟩
  · simp at e

/-- A literal that is false at the root level is removed from a clause. -/
theorem ce_strengthen {x : DS} {e : El} {cid : Nat} {p : Lit} {y : DS × El} (h : CE True x) (hp : p ∈ (x.1.clause cid).lits) (hr : Root x.2 p.neg)
    (e1 : strengthen x e cid p = .ok y) : CE True y.1 := by
  obtain ⟨db, s⟩ := x
  simp only [] at hp hr
  obtain ⟨db1, rf, he, w, out, hk, hlr, -⟩ := Cdb.transformByElimination_spec h.wf hp
  have hfr := Cdb.fresh_eliminate he
  have h1 : (∀ b ∈ (db.clause cid).lits, b ∈ (db1.clause cid).lits ∨ b = p) → CE True (db1, s) := by
    intro hc
    refine ⟨w, h.inv.root_db h.lim, h.lim, h.wt.one (cid := cid) (fun _ _ h => h) (fun i hi => by rw [hk i hi]) hfr (fun b hb => ?_) fun w _ _ hE => (hE trivial).elim⟩
    rcases hc b hb with hb | rfl
    · exact .inl hb
    · exact .inr (.inl hr)
  unfold strengthen at e1
  simp only [] at e1
  rw [he] at e1
  cases out with
  | clause h3 h' hc =>
    cases e1
    refine h1 fun b hb => ?_
    by_cases e : b = p
    · exact .inr e
    · left; rw [h']; simp [hb, e]
  | registered reg a b h2 hr' h' hne hc =>
    exact ce_drop (h1 fun b hb => .inl (by rw [h']; exact hb)) e1
  | unit a h2 h' hc =>
    simp only [] at e1
    obtain ⟨z, e2, e3⟩ := Res.bind_ok e1
    have hz : CE True z.1 := by
      refine ce_drop (x := (db1.log _, s)) ?_ e2
      have := h1 fun b hb => by
        rw [h']
        rcases h2 with h2 | h2 <;> rw [h2] at hb <;> simp at hb ⊢ <;> tauto
      exact ⟨Cdb.wf_lits w (fun _ => ⟨rfl, rfl⟩) rfl rfl rfl rfl rfl, this.inv.root_db h.lim, h.lim, this.wt.log _⟩
    split at e3
    · obtain ⟨u, e4, e5⟩ := Res.bind_ok e3
      cases e5
      exact CE.assignRootRes (db := z.1.1) (s := z.1.2) hz (.inl (.refl _)) rfl e4
    · cases e3; exact hz
    · simp at e3

theorem ce_lifted {x : DS} {e : El} {l : Lit} {did : Nat} {y : DS × El} (h : CE True x) (hm : l ∈ x.2.trail) (e1 : tryLifted x e l did = .ok y) : CE True y.1 := by
  unfold tryLifted at e1
  split at e1
  · rename_i hl
    have ht := h.inv.tv l hm
    exact ce_strengthen h hl (by rw [Lit.neg_neg]; exact ⟨ht, h.inv.level_root h.lim (tr_assigned ht)⟩) e1
  · cases e1; exact h

theorem mergeLits_nodup {v : Nat} {p q : Cls} (hp : (p.map Lit.var).Nodup) (hq : (q.map Lit.var).Nodup) : ((mergeLits v p q).map Lit.var).Nodup := by
  unfold mergeLits
  simp only []
  have main : ∀ a b : Cls, (a.map Lit.var).Nodup → (b.map Lit.var).Nodup →
      ((if (a.filter fun l => l.var ≠ v).any (fun l => decide (l.neg ∈ b)) then [] else
        (a.filter fun l => decide (l.var ≠ v) && decide (l ∉ b)) ++ b.filter fun l => l.var ≠ v).map Lit.var).Nodup := by
    intro a b ha hb
    split
    · simp
    · rename_i hc
      rw [List.map_append, List.nodup_append]
      refine ⟨ha.sublist (List.filter_sublist.map _), hb.sublist (List.filter_sublist.map _), ?_⟩
      intro x hx y hy e
      subst e
      obtain ⟨l, hl, e1⟩ := List.mem_map.1 hx
      obtain ⟨m, hm, e2⟩ := List.mem_map.1 hy
      simp only [List.mem_filter, Bool.and_eq_true, decide_eq_true_eq] at hl hm
      rcases Lit.eq_or_eq_neg_of_var (e1.trans e2.symm) with e | e
      · exact hl.2.2 (e ▸ hm.1)
      · apply hc
        rw [List.any_eq_true]
        refine ⟨l, by simp [hl.1, hl.2.1], ?_⟩
        have : l.neg = m := by rw [e]; simp
        simp [this, hm.1]
  split
  · exact main p q hp hq
  · exact main q p hq hp

theorem ce_resolveOne {evo v p n : Nat} {y z : DS × El} (h : CE True y.1) (e1 : resolveOne evo v p n y = .ok z) : CE True z.1 := by
  unfold resolveOne at e1
  simp only [] at e1
  have hnd := mergeLits_nodup (v := v) (h.wf.nd p) (h.wf.nd n)
  split at e1
  · cases e1; exact h
  · split at e1
    · cases e1; exact h
    · simp at e1
    · obtain ⟨u, e2, e3⟩ := Res.bind_ok e1
      cases e3
      exact CE.assignRootRes (db := y.1.1) (s := y.1.2) h (.inr ⟨_, rfl⟩) rfl e2
  · have key : ∀ {db1 : Cdb} {rf : RefClause}, y.1.1.newClause y.1.2.level (mergeLits v (y.1.1.clause p).lits (y.1.1.clause n).lits)
        ((y.1.1.clause p).learnt && (y.1.1.clause n).learnt) = some (db1, rf) → CE True (db1, y.1.2) := by
      intro db1 rf e2
      exact ⟨(Cdb.newClause_spec h.wf hnd e2).1, h.inv.root_db h.lim, h.lim,
        Wt.add h.wf hnd h.wt (fun _ _ h => h) e2 fun _ _ _ _ _ hE => (hE trivial).elim⟩
    split at e1
    · simp at e1
    · rename_i e2; cases e1; exact ce_addCid (key e2)
    · rename_i e2; cases e1; exact key e2

theorem ce_resolveAll {evo v : Nat} : ∀ {ps : List (Nat × Nat)} {y z : DS × El}, CE True y.1 → resolveAll evo v ps y = .ok z → CE True z.1
  | [], y, z, h, e => by unfold resolveAll at e; cases e; exact h
  | (p, n) :: ps, y, z, h, e => by
    unfold resolveAll at e
    obtain ⟨u, e2, e3⟩ := Res.bind_ok e
    exact ce_resolveAll (ce_resolveOne h e2) e3

theorem ce_dropAll : ∀ {cids : List Nat} {y z : DS × El}, CE True y.1 → dropAll cids y = .ok z → CE True z.1
  | [], y, z, h, e => by unfold dropAll at e; cases e; exact h
  | c :: cids, y, z, h, e => by
    unfold dropAll at e
    split at e
    · exact ce_dropAll h e
    · obtain ⟨u, e2, e3⟩ := Res.bind_ok e
      exact ce_dropAll (ce_drop h e2) e3

theorem Wt.makeEliminated {B : Prop} {db : Cdb} {s : Stk} {v : Nat} (hi : Inv db s) (hn : s.assign v = none) (h : Wt (fun _ _ => B) db s) :
    Wt (fun _ _ => B) db (s.makeEliminated v) := by
  obtain ⟨f1, f2, f3, f4, f5, f6, f7, f8, f9, f10⟩ := makeEliminated_fields hi hn
  exact h.stkEq f1 f2 f4 f6 f5

theorem mergeLits_var {v : Nat} {p q : Cls} {l : Lit} (h : l ∈ mergeLits v p q) : l.var ≠ v := by
  unfold mergeLits at h
  simp only [] at h
  split at h <;> split at h <;> simp at h <;> tauto

theorem resolveAll_other {evo v : Nat} : ∀ {ps : List (Nat × Nat)} {y z : DS × El}, CE True y.1 → y.1.2.assign v = none → resolveAll evo v ps y = .ok z →
    z.1.2.assign v = none
  | [], y, z, _, h, e => by unfold resolveAll at e; cases e; exact h
  | (p, n) :: ps, y, z, hc, h, e => by
    unfold resolveAll at e
    obtain ⟨u, e2, e3⟩ := Res.bind_ok e
    refine resolveAll_other (ce_resolveOne hc e2) ?_ e3
    unfold resolveOne at e2
    simp only [] at e2
    split at e2
    · cases e2; exact h
    · rename_i l hm
      split at e2
      · cases e2; exact h
      · simp at e2
      · obtain ⟨u, e4, e5⟩ := Res.bind_ok e2
        cases e5
        simp only []
        rw [assignRootRes_other hc.lim e4]
        · exact h
        · exact (mergeLits_var (p := (y.1.1.clause p).lits) (q := (y.1.1.clause n).lits) (by rw [hm]; simp)).symm
    · split at e2
      · simp at e2
      · cases e2; unfold addCid; split <;> exact h
      · cases e2; exact h

theorem dropAll_stk : ∀ {cids : List Nat} {y z : DS × El}, dropAll cids y = .ok z → z.1.2 = y.1.2
  | [], y, z, e => by unfold dropAll at e; cases e; rfl
  | c :: cids, y, z, e => by
    unfold dropAll at e
    split at e
    · exact dropAll_stk e
    · obtain ⟨u, e2, e3⟩ := Res.bind_ok e
      rw [dropAll_stk e3]
      unfold dropClause at e2
      obtain ⟨w, e4, e5⟩ := Res.bind_ok e2
      cases e5
      exact (removeRes_ok e4).2

theorem ce_eliminateVar {evo v : Nat} {x : DS} {e : El} {y : DS × El} (h : CE True x) (hn : x.2.assign v = none) (e1 : eliminateVar evo v x e = .ok y) :
    CE True y.1 := by
  unfold eliminateVar at e1
  simp only [] at e1
  obtain ⟨u, e2, e3⟩ := Res.bind_ok e1
  obtain ⟨z, e4, e5⟩ := Res.bind_ok e3
  cases e5
  have hu := ce_resolveAll (y := (x, _)) h e2
  have hz := ce_dropAll hu e4
  have hv : z.1.2.assign v = none := by rw [dropAll_stk e4]; exact resolveAll_other (y := (x, _)) h hn e2
  exact ⟨hz.wf, (hz.inv.makeEliminated hv), by rw [(makeEliminated_fields hz.inv hv).2.2.2.2.1]; exact hz.lim, hz.wt.makeEliminated hz.inv hv⟩

/-- The commands that change no clause and create none. -/
def ECmd.tame : ECmd → Prop
  | .subsume _ _ => True
  | .propagate => True
  | .retain _ _ => True
  | _ => False

theorem ce_runCmd {B : Prop} {evo : Nat} {y z : DS × El} {c : ECmd} (hB : B ∨ c.tame) (h : CE B y.1) (e : runCmd evo y c = .ok z) : CE B z.1 := by
  have up : ∀ {x : DS}, CE B x → CE True x := fun h => ⟨h.wf, h.inv, h.lim, h.wt.mono fun _ _ _ => trivial⟩
  have down : B → ∀ {x : DS}, CE True x → CE B x := fun hB h => fun h => ⟨h.wf, h.inv, h.lim, h.wt.mono fun _ _ _ => hB⟩
  cases c with
  | subsume cid did =>
    unfold runCmd at e
    simp only [] at e
    split at e
    · cases e; exact h
    · exact ce_subsume h e
  | lifted l did =>
    unfold runCmd at e
    simp only [] at e
    split at e
    · cases e; exact h
    · rename_i hc
      rw [not_or, not_not] at hc
      rcases hB with hB | hB
      · exact down hB (ce_lifted (up h) hc.1 e)
      · exact hB.elim
  | elimVar v =>
    unfold runCmd at e
    simp only [] at e
    split at e
    · cases e; exact h
    · rename_i hc
      simp only [not_or, not_not] at hc
      rcases hB with hB | hB
      · exact down hB (ce_eliminateVar (up h) hc.2.2.2.1 e)
      · exact hB.elim
  | propagate =>
    unfold runCmd at e
    obtain ⟨u, e2, e3⟩ := Res.bind_ok e
    cases e3
    exact ce_propagate h e2
  | retain v sift => unfold runCmd at e; cases e; exact h

theorem ce_runCmds {B : Prop} {evo : Nat} : ∀ {cs : List ECmd} {y z : DS × El}, (B ∨ ∀ c ∈ cs, c.tame) → CE B y.1 → runCmds evo cs y = .ok z → CE B z.1
  | [], y, z, _, h, e => by unfold runCmds at e; cases e; exact h
  | c :: cs, y, z, hB, h, e => by
    unfold runCmds at e
    obtain ⟨u, e2, e3⟩ := Res.bind_ok e
    exact ce_runCmds (hB.imp id fun h c hc => h c (by simp [hc])) (ce_runCmd (hB.imp id fun h => h c (by simp)) h e2) e3

theorem runCmds_append {evo : Nat} : ∀ {cs ds : List ECmd} {y : DS × El}, runCmds evo (cs ++ ds) y = (runCmds evo cs y).bind (runCmds evo ds)
  | [], ds, y => rfl
  | c :: cs, ds, y => by
    simp only [List.cons_append, runCmds]
    cases runCmd evo y c with
    | ok z => exact runCmds_append
    | _ => rfl

/-- The eliminator: with `B`, only cached literals matter; afterwards nothing is left to propagate. -/
theorem ce_simplify {B : Prop} {enable oom : Bool} {evo : Nat} {cmds : List ECmd} {y z : DS × El} (hB : B ∨ enable = false ∨ ∀ c ∈ cmds, c.tame) (h : CE B y.1)
    (e : simplify enable evo cmds oom y = .ok z) : CE B z.1 ∧ z.1.2.remains = false := by
  unfold simplify at e
  split at e
  · rename_i hen
    obtain ⟨u, e2, e3⟩ := Res.bind_ok e
    rw [runCmds_append] at e2
    obtain ⟨w, e4, e5⟩ := Res.bind_ok e2
    split at e3
    · simp at e3
    cases e3
    have hw : CE B w.1 := ce_runCmds (hB.imp id fun h => h.resolve_left (by simp [hen])) h e4
    unfold runCmds at e5
    obtain ⟨v, e6, e7⟩ := Res.bind_ok e5
    unfold runCmds at e7; cases e7
    unfold runCmd at e6
    obtain ⟨t, e8, e9⟩ := Res.bind_ok e6
    cases e9
    have ht := ce_propagate hw e8
    refine ⟨CE.flags (db := t.1) (s := t.2) ht (flags_unlinkAll _) rfl, ?_⟩
    exact propagate_remains (y := t) hw.rinv e8
  · obtain ⟨t, e8, e9⟩ := Res.bind_ok e
    split at e9
    · simp at e9
    cases e9
    exact ⟨ce_propagate h e8, propagate_remains h.rinv e8⟩

/-- A clause with a false literal has a true one. -/
def Swept0 (db : Cdb) (s : Stk) : Prop := ∀ i, ∀ w ∈ (db.clause i).lits, s.tr w.neg → ∃ t ∈ (db.clause i).lits, s.tr t

theorem CE.swept {x : DS} (h : CE True x) (hs : Swept0 x.1 x.2) : CE False x := by
  refine ⟨h.wf, h.inv, h.lim, h.wt.cache, h.wt.cur, fun i w h1 h2 _ => ?_⟩
  obtain ⟨t, t1, t2⟩ := hs i w (h1.elim List.mem_of_getElem? List.mem_of_getElem?) h2.1
  exact ⟨t, t1, t2, by rw [h.inv.level_root h.lim (tr_assigned t2)]; omega⟩

theorem ce_pureLoop {B : Prop} {cnf : Nat} {e : El} : ∀ {n vi : Nat} {x y : DS}, CE B x → pureLoop cnf e n vi x = .ok y → CE B y
  | 0, _, x, y, h, e1 => by unfold pureLoop at e1; cases e1; exact h
  | n + 1, vi, x, y, h, e1 => by
    unfold pureLoop at e1
    split at e1
    · exact ce_pureLoop h e1
    split at e1
    · simp at e1
    split at e1
    · exact ce_pureLoop h e1
    split at e1
    · obtain ⟨u, e2, e3⟩ := Res.bind_ok e1
      exact ce_pureLoop (CE.assignRootRes (db := x.1) (s := x.2) h (.inr ⟨_, rfl⟩) rfl e2) e3
    split at e1
    · obtain ⟨u, e2, e3⟩ := Res.bind_ok e1
      exact ce_pureLoop (CE.assignRootRes (db := x.1) (s := x.2) h (.inr ⟨_, rfl⟩) rfl e2) e3
    · exact ce_pureLoop h e1

end Splr
