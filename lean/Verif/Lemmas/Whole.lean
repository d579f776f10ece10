import Verif.Model.Whole
import Verif.Lemmas.Full
import Verif.Props.C75_Targets
/-!
# `solveW` is one of the runs of `solveQ`
-/
namespace Splr
open Stage Stk

theorem learnClauseW_res (db : Cdb) (s : Stk) (low : Nat → Bool) (drift : Bool) (v : Cls) (lv : Nat) :
    (learnClauseW db s low drift v lv).res = learnClause db s low drift v lv := by
  unfold learnClauseW learnClause
  rcases v with _ | ⟨l0, _ | ⟨l1, tl⟩⟩
  · rfl
  · rfl
  · simp only []
    generalize db.newClause _ _ _ = g
    rcases g with _ | ⟨db1, r⟩
    · rfl
    · cases r <;> simp only [] <;> first | rfl | (split <;> rfl)

theorem learnUnitW_res (db : Cdb) (s : Stk) (low : Nat → Bool) (l0 : Lit) : (learnUnitW db s low l0).res = learnUnit db s low l0 := by
  unfold learnUnitW learnUnit
  split
  · rfl
  · split
    · rfl
    · generalize s.assignRoot low l0 = g
      rcases g with ⟨s1, _ | _⟩ <;> rfl

/-- The number does not change what happens. -/
theorem handleConflictW_res (db : Cdb) (s : Stk) (low : Nat → Bool) (rr : Option Nat) (drift : Bool) (l : Lit) (r : Reason) :
    (handleConflictW db s low rr drift l r).res = handleConflict db s low rr drift l r := by
  unfold handleConflictW handleConflict
  split
  · rfl
  · rcases conflictAnalyze db s l r with _ | ⟨_ | ⟨l0, _ | ⟨l1, tl⟩⟩, lv, seen⟩
    · rfl
    · rfl
    · exact learnUnitW_res _ _ _ _
    · exact learnClauseW_res _ _ _ _ _ _

variable {K : Type} [LinearOrder K]

theorem reduceW_choice (k : Keys K) (t : ReductionType K) (x : DS) : ∃ victims, reduceW k t x = x.1.reduceRes x.2 victims := by
  obtain ⟨vs, h⟩ := reduceBy_choice x.1 x.2.level k t
  refine ⟨vs, ?_⟩
  unfold reduceW Cdb.reduceRes
  rw [h]
  cases x.1.reduceBy x.2.level k t <;> rfl

/-- The end of a stage as in `stageStepQ`. -/
def stOf (t : TickW K) (flag : Option Bool) (vs ts : List Nat) : StageOrc :=
  { timeout := t.timeout, cycle := flag.isSome, segment := flag.getD false, victims := vs, targets := ts, cmds := [], oom := t.oom }

omit [LinearOrder K] in
theorem segmentElimW_eq (c : CfgW) (t : TickW K) (flag : Option Bool) (vs ts : List Nat) (y : Sol) :
    segmentElimW c t.ctl t.oom y = segmentElimQ c.cfg t.ctl (stOf t flag vs ts) y := rfl

theorem stageStepW_choice (c : CfgW) (t : TickW K) (m : StageManager) (flag : Option Bool) (n : Counts) (x : Sol) :
    ∃ vs ts, ((stageStepW c t m flag n x).bind fun y => .ok y.1) = stageStepQ c.cfg t.ctl (stOf t flag vs ts) t.o.low2 x ∧
      ampleStageW c t m flag n x = ampleStage c.cfg t.ctl (stOf t flag vs ts) t.o.low2 x := by
  have ha : ∀ vs ts, ((stOf t flag vs ts).cycle && (stOf t flag vs ts).segment) = decide (flag = some true) := by
    intro vs ts
    rcases flag with _ | _ | _ <;> rfl
  unfold stageStepW stageStepQ ampleStageW ampleStage
  simp only [ha, decide_eq_true_eq]
  cases hca : clearAsserted (x.db, x.s.restart t.o.low2) with
  | ok x1 =>
    obtain ⟨vs, hv⟩ := reduceW_choice t.keys (reductionW c m flag.isSome) x1
    cases hr : x1.1.reduceRes x1.2 vs with
    | ok x2 =>
      obtain ⟨ts, ht⟩ := vivifyAll_vivify c.vivLimit (n.restarts + 1 == 0) (n.vivs % 32) t.used x2
      refine ⟨vs, ts, ?_, ?_⟩
      · have hst : (stOf t flag vs ts).timeout = t.timeout := rfl
        cases hto : t.timeout
        swap
        · simp [hst, hto, Res.bind]
        have hvi : (stOf t flag vs ts).victims = vs := rfl
        have hta : (stOf t flag vs ts).targets = ts := rfl
        simp only [hst, hto, Bool.false_eq_true, if_false, hvi, Res.bind_okk, hv, hr, hta, vivifyW, ht]
        rcases flag with _ | _ | _
        · rfl
        · show ((((vivify ts x2).bind _).bind _).bind _) = ((vivify ts x2).bind _).bind _
          cases vivify ts x2 <;> rfl
        · show ((((vivify ts x2).bind _).bind _).bind _) = ((vivify ts x2).bind _).bind _
          cases vivify ts x2 with
          | ok x3 =>
            simp only [Res.bind_okk, if_true, segmentElimW_eq c t (some true) vs ts]
            have : (stOf t (some true) vs ts).segment = true := rfl
            simp only [this, if_true]
            generalize segmentElimQ c.cfg t.ctl (stOf t (some true) vs ts) _ = g
            cases g <;> rfl
          | _ => rfl
      · have hvi : (stOf t flag vs ts).victims = vs := rfl
        have hta : (stOf t flag vs ts).targets = ts := rfl
        simp only [hvi, hta, Res.every, hv, hr, vivifyW, ht]
    | _ =>
      refine ⟨vs, [], ?_, ?_⟩
      · have hst : (stOf t flag vs []).timeout = t.timeout := rfl
        cases hto : t.timeout
        swap
        · simp [hst, hto, Res.bind]
        have hvi : (stOf t flag vs []).victims = vs := rfl
        simp only [hst, hto, Bool.false_eq_true, if_false, hvi, Res.bind_okk, hv, hr]
        rfl
      · have hvi : (stOf t flag vs []).victims = vs := rfl
        simp only [hvi, Res.every, hv, hr]
  | _ =>
    refine ⟨[], [], ?_, rfl⟩
    have hst : (stOf t flag [] []).timeout = t.timeout := rfl
    cases hto : t.timeout
    · simp only [hst, hto, Bool.false_eq_true, if_false]
      rfl
    · simp [hst, hto, Res.bind]

/-- The iteration as in `timedStepQ`. -/
def tickOf (t : TickW K) (g : Bool) (vs ts : List Nat) : TickQ :=
  { t := { o := t.o, grows := g, st := stOf t none vs ts }, ctl := t.ctl }

/-- Without the counters. -/
def Whole.timed (z : Whole) : Timed := (z.1, z.2.1, z.2.2.1)

theorem conflictW_choice (c : CfgW) (t : TickW K) (rank : Nat) (x : Sol) (n : Nat) (m : StageManager) (k : Counts) :
    ∃ vs ts, ((conflictW c t rank x n m k).bind fun z => .ok z.timed) = timedConflictQ c.cfg (tickOf t (decide (1 < rank)) vs ts) x n m ∧
      (if m.ended (if 1 < rank then n + 1 else n) then
        match m.prepare (if 1 < rank then n + 1 else n) with
        | some (flag, m1) => ampleStageW c t m1 flag k x
        | none => true
      else true) =
      (if m.ended (if 1 < rank then n + 1 else n) then
        match m.prepare (if 1 < rank then n + 1 else n) with
        | some (flag, _) => ampleStage c.cfg t.ctl (stOf t flag vs ts) t.o.low2 x
        | none => true
      else true) := by
  unfold conflictW timedConflictQ
  have hg : ∀ vs ts, (if (tickOf t (decide (1 < rank)) vs ts).t.grows then n + 1 else n) = if 1 < rank then n + 1 else n := by
    intro vs ts
    simp [tickOf]
  simp only [hg]
  by_cases he : m.ended (if 1 < rank then n + 1 else n) = true
  · simp only [he, if_true]
    cases hp : m.prepare (if 1 < rank then n + 1 else n) with
    | none => exact ⟨[], [], rfl, rfl⟩
    | some fm =>
      obtain ⟨flag, m1⟩ := fm
      obtain ⟨vs, ts, h, ha⟩ := stageStepW_choice c t m1 flag k x
      refine ⟨vs, ts, ?_, ha⟩
      have hst : { (tickOf t (decide (1 < rank)) vs ts).t.st with cycle := flag.isSome, segment := flag.getD false } = stOf t flag vs ts := rfl
      have hl : (tickOf t (decide (1 < rank)) vs ts).t.o.low2 = t.o.low2 := rfl
      have hc : (tickOf t (decide (1 < rank)) vs ts).ctl = t.ctl := rfl
      simp only [hst, hl, hc, ← h]
      generalize stageStepW c t m1 flag k x = g
      cases g <;> rfl
  · refine ⟨[], [], ?_, by rw [if_neg he, if_neg he]⟩
    simp only [he]
    have ho : (tickOf t (decide (1 < rank)) [] []).t.o = t.o := rfl
    simp only [ho]
    cases t.o.restart <;> rfl

theorem stepW_choice (c : CfgW) (t : TickW K) (z : Whole) :
    ∃ g vs ts, ((stepW c t z).bind fun y => .ok y.timed) = timedStepQ c.cfg (tickOf t g vs ts) z.timed ∧
      ampleTickW c t z = ampleTick c.cfg (tickOf t g vs ts) z.timed := by
  unfold stepW timedStepQ ampleTickW ampleTick
  have ho : ∀ g vs ts, (tickOf t g vs ts).t.o = t.o := fun _ _ _ => rfl
  simp only [ho]
  have hz : z.timed.1 = z.1 := rfl
  simp only [hz]
  cases hd : decideStep t.o z.1.s with
  | none => exact ⟨false, [], [], rfl, rfl⟩
  | some s =>
    simp only []
    cases hp : Stk.propagate t.o.q z.1.db s with
    | ok db s1 => exact ⟨false, [], [], rfl, rfl⟩
    | panic => exact ⟨false, [], [], rfl, rfl⟩
    | fuel => exact ⟨false, [], [], rfl, rfl⟩
    | conflict db s1 l r =>
      simp only []
      by_cases h0 : s1.dl = 0
      · simp only [h0, if_true]; exact ⟨false, [], [], rfl, trivial⟩
      · simp only [h0, if_false]
        rw [← handleConflictW_res]
        cases handleConflictW db s1 t.o.low t.o.rr t.o.drift l r with
        | panic => exact ⟨false, [], [], rfl, rfl⟩
        | unsat db2 s2 => exact ⟨false, [], [], rfl, rfl⟩
        | ok db2 s2 rank =>
          obtain ⟨vs, ts, h, ha⟩ := conflictW_choice c t rank { z.1 with db := db2, s := s2 } z.2.1 z.2.2.1 z.2.2.2
          refine ⟨decide (1 < rank), vs, ts, h, ?_⟩
          have hg : (if (tickOf t (decide (1 < rank)) vs ts).t.grows then z.timed.2.1 + 1 else z.timed.2.1) = if 1 < rank then z.2.1 + 1 else z.2.1 := by
            simp [tickOf, Whole.timed]
          simp only [HResW.res, hg]
          exact ha

/-- `t'` is `t`, with some choices for what `TickW` does not contain. -/
def SameOpen (t : TickW K) (t' : TickQ) : Prop := ∃ g vs ts, t' = tickOf t g vs ts

theorem loopW_choice (c : CfgW) : ∀ (ts : List (TickW K)) (z : Whole),
    ∃ qs, List.Forall₂ SameOpen ts qs ∧ ((loopW c ts z).bind fun y => .ok y.timed) = timedLoopQ c.cfg qs z.timed ∧
      ampleTicksW c ts z = ampleTicks c.cfg qs z.timed
  | [], z => ⟨[], .nil, rfl, rfl⟩
  | t :: ts, z => by
    obtain ⟨g, vs, us, h, ha⟩ := stepW_choice c t z
    by_cases hr : z.1.s.running = true
    · have hr' : z.timed.1.s.running = true := hr
      cases hs : stepW c t z with
      | ok y =>
        obtain ⟨qs, h1, h2, h3⟩ := loopW_choice c ts y
        refine ⟨tickOf t g vs us :: qs, .cons ⟨_, _, _, rfl⟩ h1, ?_, ?_⟩
        · simp only [loopW, timedLoopQ, hr, hr', if_true, hs, ← h, Res.bind_okk, h2]
        · simp only [ampleTicksW, ampleTicks, hr, hr', if_true, hs, ← h, Res.bind_okk, Res.every, h3, ha]
      | _ =>
        refine ⟨tickOf t g vs us :: ts.map fun t => tickOf t false [] [], .cons ⟨_, _, _, rfl⟩ ?_, ?_, ?_⟩
        · exact List.forall₂_map_right_iff.2 (List.forall₂_same.2 fun t _ => ⟨_, _, _, rfl⟩)
        · simp only [loopW, timedLoopQ, hr, hr', if_true, hs, ← h, Res.bind]
        · simp only [ampleTicksW, ampleTicks, hr, hr', if_true, hs, ← h, Res.bind, Res.every, ha]
    · have hr' : z.timed.1.s.running = false := Bool.eq_false_iff.2 hr
      refine ⟨(t :: ts).map fun t => tickOf t false [] [], List.forall₂_map_right_iff.2 (List.forall₂_same.2 fun t _ => ⟨_, _, _, rfl⟩), ?_, ?_⟩
      · simp only [loopW, hr, List.map_cons, timedLoopQ, hr']
        rfl
      · simp only [ampleTicksW, hr, List.map_cons, ampleTicks, hr']
        rfl

/-- `p'` is `p`, with a choice of clauses to be vivified. -/
def SamePre (p : PreW) (p' : PreQ) : Prop := ∃ ts, p' = { oom := p.oom, targets := ts, oom1 := p.oom1, ctl := p.ctl, oom2 := p.oom2 }

theorem preprocessW_choice (c : CfgW) (p : PreW) (n : Counts) (x : Sol) : ∃ q, SamePre p q ∧ preprocessW c p n x = preprocessQ c.cfg q x ∧
    amplePreW c p n x = amplePre c.cfg q x := by
  obtain ⟨ts, ht⟩ := vivifyAll_vivify c.vivLimit (n.restarts == 0) (n.vivs % 32) p.used (x.db, x.s)
  refine ⟨_, ⟨ts, rfl⟩, ?_, ?_⟩
  · unfold preprocessW preprocessQ vivifyW
    rw [ht]
    cases hen : c.cfg.enable
    · simp only [Bool.false_eq_true, if_false]
      unfold preprocess PreQ.pre
      simp only [hen]
    · simp only [if_true]
  · unfold amplePreW amplePre vivifyW
    rw [ht]

/-- The refinement. -/
theorem solveW_choice (c : CfgW) (p : PreW) (m : StageManager) (n : Counts) (ts : List (TickW K)) (low : Nat → Bool) (x : Sol) :
    ∃ q qs, SamePre p q ∧ List.Forall₂ SameOpen ts qs ∧ solveW c p m n ts low x = solveQ c.cfg q m qs low x ∧
      ampleRunW c p m n ts x = ampleRun c.cfg q m qs x := by
  obtain ⟨q, h1, h2, ha⟩ := preprocessW_choice c p n x
  cases hp : preprocessW c p n x with
  | ok y =>
    obtain ⟨qs, h3, h4, h5⟩ := loopW_choice c ts (y, 0, m.initialize 32, { n with vivs := n.vivs + 1 })
    refine ⟨q, qs, h1, h3, ?_, ?_⟩
    · have h4' : (loopW c ts (y, 0, m.initialize 32, { n with vivs := n.vivs + 1 })).bind (fun y => Res.ok y.timed) =
        timedLoopQ c.cfg qs (y, 0, m.initialize 32) := h4
      unfold solveW solveQ
      rw [← h2, hp]
      simp only [Res.bind_okk]
      rw [← h4']
      cases loopW c ts (y, 0, m.initialize 32, { n with vivs := n.vivs + 1 }) <;> rfl
    · unfold ampleRunW ampleRun
      rw [← h2, hp, ha]
      simp only [Res.every, h5]
      rfl
  | _ =>
    refine ⟨q, ts.map fun t => tickOf t false [] [], h1, List.forall₂_map_right_iff.2 (List.forall₂_same.2 fun t _ => ⟨_, _, _, rfl⟩), ?_, ?_⟩
    · unfold solveW solveQ
      rw [← h2, hp]
      rfl
    · unfold ampleRunW ampleRun
      rw [← h2, hp, ha]
      rfl

end Splr
