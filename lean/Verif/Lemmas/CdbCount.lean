import Verif.Lemmas.CdbMove
import Verif.Model.CdbRun
/-! Counting clauses. -/
namespace Splr
namespace Cdb

theorem step_wf {db db' : Cdb} (ih : db.WF) (s : DbStep db db') : db'.WF := by
    cases s with
    | new level vec learnt hn e => exact (newClause_spec ih hn e).1
    | remove cid e => exact (removeClause_spec ih e).1
    | strengthen cid p hp e =>
      obtain ⟨d, r, e', w, -⟩ := transformByElimination_spec ih hp
      rw [e] at e'; simp at e'; rw [e'.1]; exact w
    | simplify asg elim cid hl e =>
      obtain ⟨d, r, e', w, -⟩ := transformBySimplification_spec (asg := asg) (elim := elim) ih hl
      rw [e] at e'; simp at e'; rw [e'.1]; exact w
    | swap cid hl => exact wf_swapWatch ih hl
    | restore l idx op => exact wf_restoreWatch ih l idx op
    | move l idx cid old k sf b lk other hi ho ha hb h2 hk hs => exact (moveWatch_spec ih hi ho ha hb h2 hk hs).1
    | reduce level victims e =>
      obtain ⟨d, e', w, -⟩ := reduce_spec ih level victims
      rw [e] at e'; simp at e'; rw [e']; exact w

theorem reach_wf {db : Cdb} (h : DbReach db) : db.WF := by
  induction h with
  | new => exact wf_new
  | step _ s ih => exact step_wf ih s

/-- the number of `i < n` with `f i`, as an integer -/
def cntN (f : Nat → Bool) : Nat → Int
  | 0 => 0
  | n + 1 => cntN f n + (if f n then 1 else 0)

theorem cntN_congr {f g : Nat → Bool} : ∀ {n : Nat}, (∀ i, i < n → f i = g i) → cntN f n = cntN g n
  | 0, _ => rfl
  | n + 1, h => by simp only [cntN]; rw [cntN_congr (fun i hi => h i (by omega)), h n (by omega)]

theorem cntN_upd {f g : Nat → Bool} {c : Nat} (h : ∀ i, i ≠ c → g i = f i) : ∀ {n : Nat}, c < n →
    cntN g n = cntN f n - (if f c then 1 else 0) + (if g c then 1 else 0)
  | 0, hc => by omega
  | n + 1, hc => by
    simp only [cntN]
    by_cases e : c = n
    · subst e
      rw [cntN_congr (fun i hi => h i (by omega))]; omega
    · rw [cntN_upd h (by omega), h n (fun e' => e e'.symm)]; omega

theorem cntN_range (f : Nat → Bool) : ∀ n, cntN f n = ((List.range n).countP f : Nat)
  | 0 => rfl
  | n + 1 => by
    simp only [cntN, List.range_succ, List.countP_append, cntN_range f n]
    by_cases h : f n <;> simp [h]

/-- the number of clauses with property `q` -/
def cnt (q : Cl → Bool) (db : Cdb) : Int := cntN (fun i => q (db.clause i)) db.len

/-- a counter of clauses: dead clauses do not count -/
def Live (q : Cl → Bool) : Prop := ∀ c : Cl, c.lits = [] → q c = false

theorem cnt_upd {q : Cl → Bool} (hq : Live q) {db db' : Cdb} (h : db.WF) {cid : Nat} (hlt : cid < db'.len) (hle : db.len ≤ db'.len)
    (hcl : ∀ i, i ≠ cid → q (db'.clause i) = q (db.clause i)) :
    cnt q db' = cnt q db - (if q (db.clause cid) then 1 else 0) + (if q (db'.clause cid) then 1 else 0) := by
  have ext : ∀ n, db.len ≤ n → cntN (fun i => q (db.clause i)) n = cnt q db := by
    intro n hn
    induction n with
    | zero => have := h.arena.pos; omega
    | succ n ih =>
      by_cases e : db.len = n + 1
      · unfold cnt; rw [e]
      · simp only [cntN]; rw [ih (by omega)]; simp [hq _ (h.arena.big n (by omega))]
  unfold cnt
  rw [cntN_upd (f := fun i => q (db.clause i)) (c := cid) hcl hlt, ext _ hle]
  rfl


def qA (c : Cl) : Bool := !c.lits.isEmpty
def qB (c : Cl) : Bool := c.lits.length == 2
def qL (c : Cl) : Bool := !c.lits.isEmpty && c.learnt

theorem liveA : Live qA := fun c h => by simp [qA, h]
theorem liveB : Live qB := fun c h => by simp [qB, h]
theorem liveL : Live qL := fun c h => by simp [qL, h]

/-- the first two counters are exact, the third is too large by `k` -/
structure Stats (k : Int) (db : Cdb) : Prop where
  a : db.numClause = cnt qA db
  b : db.numBiClause = cnt qB db
  l : db.numLearnt = cnt qL db + k

variable {k : Int}

theorem Stats.of_upd {db db' : Cdb} (hs : Stats k db) (h : db.WF) {cid : Nat} (hlt : cid < db'.len) (hle : db.len ≤ db'.len)
    (hcl : ∀ i, i ≠ cid → (db'.clause i).lits = (db.clause i).lits ∧ (db'.clause i).learnt = (db.clause i).learnt)
    (ha : db'.numClause = db.numClause - (if qA (db.clause cid) then 1 else 0) + (if qA (db'.clause cid) then 1 else 0))
    (hb : db'.numBiClause = db.numBiClause - (if qB (db.clause cid) then 1 else 0) + (if qB (db'.clause cid) then 1 else 0))
    (hl : db'.numLearnt = db.numLearnt - (if qL (db.clause cid) then 1 else 0) + (if qL (db'.clause cid) then 1 else 0)) :
    Stats k db' := by
  refine ⟨?_, ?_, ?_⟩
  · rw [ha, hs.a, cnt_upd liveA h hlt hle]; intro i hi; simp [qA, hcl i hi]
  · rw [hb, hs.b, cnt_upd liveB h hlt hle]; intro i hi; simp [qB, hcl i hi]
  · rw [hl, hs.l, cnt_upd liveL h hlt hle]
    · omega
    · intro i hi; simp [qL, hcl i hi]

/-- all clauses and counters unchanged -/
theorem Stats.congr {db db' : Cdb} (hs : Stats k db) (hn : db'.len = db.len)
    (hcl : ∀ i, (db'.clause i).lits.length = (db.clause i).lits.length ∧ (db'.clause i).learnt = (db.clause i).learnt)
    (ha : db'.numClause = db.numClause) (hb : db'.numBiClause = db.numBiClause) (hl : db'.numLearnt = db.numLearnt) : Stats k db' := by
  have he : ∀ i, (db'.clause i).lits.isEmpty = (db.clause i).lits.isEmpty := by
    intro i; have := (hcl i).1
    cases h1 : (db'.clause i).lits <;> cases h2 : (db.clause i).lits <;> simp [h1, h2] at this ⊢
  refine ⟨?_, ?_, ?_⟩
  · rw [ha, hs.a]; unfold cnt; rw [hn]; apply cntN_congr; intro i _; simp [qA, he]
  · rw [hb, hs.b]; unfold cnt; rw [hn]; apply cntN_congr; intro i _; simp [qB, hcl]
  · rw [hl, hs.l]; unfold cnt; rw [hn]; congr 1; apply cntN_congr; intro i _; simp [qL, he, hcl]

theorem WF.lt_len {db : Cdb} (h : db.WF) {cid : Nat} (hl : (db.clause cid).lits ≠ []) : cid < db.len := by
  by_contra e; exact hl (h.arena.big _ (by omega))

theorem alloc_counters (db : Cdb) (c : Cl) : (db.alloc c).1.numClause = db.numClause ∧
    (db.alloc c).1.numBiClause = db.numBiClause ∧ (db.alloc c).1.numLearnt = db.numLearnt := by
  unfold alloc; cases db.free <;> exact ⟨rfl, rfl, rfl⟩

theorem newClause_counters {db db' : Cdb} {level : Nat → Nat} {vec : Cls} {learnt : Bool} {cid : Nat}
    (e : db.newClause level vec learnt = some (db', .clause cid)) :
    db'.numClause = db.numClause + 1 ∧ db'.numBiClause = db.numBiClause + (if vec.length = 2 then 1 else 0) ∧
    db'.numLearnt = db.numLearnt + (if learnt = true ∧ vec.length ≠ 2 then 1 else 0) ∧ db.len ≤ db'.len := by
  unfold newClause at e
  split at e
  next l0 l1 tl =>
    split at e
    next => simp at e
    next =>
      simp only [Option.some.injEq, Prod.mk.injEq] at e
      obtain ⟨e, -⟩ := e
      rw [← e]
      have hlen : ∀ d : Cdb, ∀ c, d.len ≤ (d.alloc c).1.len := by
        intro d c; unfold alloc; cases d.free <;> simp
      cases tl with
      | nil =>
        obtain ⟨c1, c2, c3⟩ := alloc_counters (db.log (.add [l0, l1])) { lits := [l0, l1], learnt := learnt && false, rank := 1 }
        refine ⟨?_, ?_, ?_, ?_⟩
        · show (alloc _ _).1.numClause + 1 = _
          exact congrArg (· + 1) c1
        · show (alloc _ _).1.numBiClause + 1 = _
          exact congrArg (· + 1) c2
        · have : (alloc (db.log (.add [l0, l1])) { lits := [l0, l1], learnt := learnt && false, rank := 1 }).1.numLearnt = db.numLearnt := c3
          simp only [attach, List.isEmpty_nil, if_true, blAdd, Bool.not_true, Bool.and_false, Bool.false_eq_true, if_false] at c3 ⊢
          rw [c3]; simp [log]
        · show db.len ≤ (alloc _ _).1.len
          exact hlen (db.log (.add [l0, l1])) _
      | cons t0 tl =>
        obtain ⟨c1, c2, c3⟩ := alloc_counters (db.log (.add (l0 :: l1 :: t0 :: tl))) { lits := l0 :: l1 :: t0 :: tl, learnt := learnt && true, rank := lbdOf level (l0 :: l1 :: t0 :: tl) }
        refine ⟨?_, ?_, ?_, ?_⟩
        · show (alloc _ _).1.numClause + 1 = _
          exact congrArg (· + 1) c1
        · simp [attach, insW] at c2 ⊢; rw [c2]; rfl
        · cases learnt <;> simp [attach, insW] <;> simp at c3 <;> rw [c3] <;> rfl
        · show db.len ≤ (alloc _ _).1.len
          exact hlen (db.log (.add (l0 :: l1 :: t0 :: tl))) _
  next => simp at e

theorem removeClause_counters {db db' : Cdb} {cid : Nat} (e : db.removeClause cid = some db') :
    db'.numClause = db.numClause - 1 ∧ db'.numBiClause = db.numBiClause - (if (db.clause cid).lits.length = 2 then 1 else 0) ∧
    db'.numLearnt = db.numLearnt - (if (db.clause cid).learnt then 1 else 0) := by
  unfold removeClause at e
  split at e
  next l0 l1 tl hl =>
    simp only [Option.some.injEq] at e
    rw [← e, hl]
    cases tl with
    | nil => cases h : (db.clause cid).learnt <;> exact ⟨rfl, rfl, by simp [log, setC, blRemove]⟩
    | cons t0 tl =>
      cases h : (db.clause cid).learnt <;> simp [log, setC, rmW]
  next => simp at e

theorem stats_remove {db db' : Cdb} {cid : Nat} (h : db.WF) (hs : Stats k db) (e : db.removeClause cid = some db') : Stats k db' := by
  obtain ⟨c1, c2, c3⟩ := removeClause_counters e
  obtain ⟨w, hl, hc, hlen, -⟩ := removeClause_spec h e
  have hd : (db'.clause cid).lits = [] := by rw [hc]; simp
  refine hs.of_upd h (cid := cid) (by rw [hlen]; exact h.lt_len hl) (by omega) ?_ ?_ ?_ ?_
  · intro i hi; rw [hc, upd_of_ne _ _ hi]; exact ⟨rfl, rfl⟩
  · rw [c1]; simp [qA, hd, hl]
  · rw [c2]; simp [qB, hd]
  · rw [c3]; simp [qL, hd, hl]

theorem rewatchElim_counters {db db' : Cdb} {cid : Nat} {p o0 o1 n0 n1 : Lit} (e : db.rewatchElim cid p o0 o1 n0 n1 = some db') :
    db'.numClause = db.numClause ∧ db'.numBiClause = db.numBiClause ∧ db'.numLearnt = db.numLearnt := by
  unfold rewatchElim at e
  repeat' split at e
  all_goals first
    | (simp at e; done)
    | (simp only [Option.some.injEq] at e; rw [← e]; exact ⟨rfl, rfl, rfl⟩)

theorem rewatch_counters (db : Cdb) (cid : Nat) (o0 o1 n0 n1 : Lit) :
    (db.rewatch cid o0 o1 n0 n1).numClause = db.numClause ∧ (db.rewatch cid o0 o1 n0 n1).numBiClause = db.numBiClause ∧
    (db.rewatch cid o0 o1 n0 n1).numLearnt = db.numLearnt := by
  unfold rewatch
  repeat' split
  all_goals exact ⟨rfl, rfl, rfl⟩

/-- the counters after `transform_by_elimination` -/
theorem elim_counters {db db' : Cdb} {cid : Nat} {p : Lit} {r : RefClause} (h : db.WF)
    (e : db.transformByElimination cid p = some (db', r)) :
    db'.numClause = db.numClause ∧ db'.numLearnt = db.numLearnt ∧
    (db'.numBiClause = db.numBiClause + (if (db'.clause cid).lits.length = 2 then 1 else 0) -
      (if (db.clause cid).lits.length = 2 then 1 else 0)) := by
  unfold transformByElimination at e
  split at e
  next o0 o1 hl =>
    split at e <;> (simp only [Option.some.injEq, Prod.mk.injEq] at e; obtain ⟨e, -⟩ := e; rw [← e]; simp [setC, hl])
  next o0 o1 tl hno hl =>
    have h3 : tl ≠ [] := fun e => hno (by rw [e])
    have hlen : (db.clause cid).lits.length ≠ 2 := by rw [hl]; cases tl <;> simp at h3 ⊢
    split at e
    next n0 n1 hf =>
      split at e
      next =>
        simp only [Option.some.injEq, Prod.mk.injEq] at e; obtain ⟨e, -⟩ := e; rw [← e]; simp [setC]
      next =>
        simp only [Option.some.injEq, Prod.mk.injEq] at e; obtain ⟨e, -⟩ := e; rw [← e]
        simp [setC, log, blAdd, rmW, hlen]
    next n0 n1 nt hno2 hf =>
      split at e
      next => simp at e
      next db1 he =>
        obtain ⟨c1, c2, c3⟩ := rewatchElim_counters he
        simp only [Option.some.injEq, Prod.mk.injEq] at e; obtain ⟨e, -⟩ := e; rw [← e]
        have : nt ≠ [] := fun e => hno2 e
        have h2 : nt.length ≠ 0 := by simpa using this
        simp [setC, log, hlen, c1, c2, c3, h2]
    next => simp at e
  next => simp at e

theorem stats_elim {db db' : Cdb} {cid : Nat} {p : Lit} {r : RefClause} (h : db.WF) (hs : Stats k db)
    (hp : p ∈ (db.clause cid).lits) (e : db.transformByElimination cid p = some (db', r)) : Stats k db' := by
  obtain ⟨c1, c2, c3⟩ := elim_counters h e
  obtain ⟨d, r', e', w, o, hcl, hl, hlen⟩ := transformByElimination_spec h hp
  rw [e] at e'; simp at e'; obtain ⟨rfl, rfl⟩ := e'
  have hne : (db.clause cid).lits ≠ [] := by intro e; rw [e] at hp; simp at hp
  have hne' : (db'.clause cid).lits ≠ [] := by
    cases o with
    | unit a h1 h2 h3 => rw [h2]; simp
    | registered reg a b h1 h2 h3 => rw [h3]; exact hne
    | clause h1 h2 h3 =>
      rw [h2]; intro e
      have := length_filter_ne (nodup_of_map_var (h.nd cid)) hp; rw [e] at this; simp at this; omega
  refine hs.of_upd h (cid := cid) (by rw [hlen]; exact h.lt_len hne) (by omega) (fun i hi => by rw [hcl i hi]; simp) ?_ ?_ ?_
  · rw [c1]; simp [qA, hne, hne']
  · rw [c3]; simp [qB]; omega
  · rw [c2]; simp [qL, hne, hne', hl]

/-- the counters after `transform_by_simplification` -/
theorem stats_simp {db db' : Cdb} {asg : Nat → Option Bool} {elim : Nat → Bool} {cid : Nat} {r : RefClause} (h : db.WF)
    (hs : Stats k db) (hne : (db.clause cid).lits ≠ []) (e : db.transformBySimplification asg elim cid = some (db', r)) : Stats k db' := by
  obtain ⟨d, r', e', w, o, hcl, hlen⟩ := transformBySimplification_spec (asg := asg) (elim := elim) h hne
  rw [e] at e'; simp at e'; obtain ⟨rfl, rfl⟩ := e'
  unfold transformBySimplification at e
  split at e
  · cases hr : db.removeClause cid with
    | none => rw [hr] at e; simp at e
    | some d => rw [hr] at e; simp at e; rw [← e.1]; exact stats_remove h hs hr
  · split at e
    · simp at e; rw [← e.1]; exact hs
    · rename_i hall
      split at e
      · simp at e; rw [← e.1]; exact hs
      · simp at e; rw [← e.1]; exact hs
      · rename_i l0 l1 o0 o1 tl hf hl
        split at e
        · cases hr : db.removeClause cid with
          | none => rw [hr] at e; simp at e
          | some d => rw [hr] at e; simp at e; rw [← e.1]; exact stats_remove h hs hr
        · have hlt := filter_shorter hall
          rw [hf] at hlt
          simp only [Option.some.injEq, Prod.mk.injEq] at e
          obtain ⟨e, -⟩ := e
          refine hs.of_upd h (cid := cid) (by rw [hlen]; exact h.lt_len hne) (by omega) (fun i hi => by rw [hcl i hi]; simp) ?_ ?_ ?_
          · rw [← e]; simp [qA, log, setC, blAdd, rmW, hne]
          · have : (db.clause cid).lits.length ≠ 2 := by simp at hlt; omega
            rw [← e]; simp [qB, log, setC, blAdd, rmW, this]
          · rw [← e]; cases hll : (db.clause cid).learnt <;> simp [qL, log, setC, blAdd, rmW, hne, hll]
      · rename_i n0 n1 nt o0 o1 tl hno hf hl
        have hlt := filter_shorter hall
        rw [hf] at hlt
        obtain ⟨c1, c2, c3⟩ := rewatch_counters db cid o0 o1 n0 n1
        simp only [Option.some.injEq, Prod.mk.injEq] at e
        obtain ⟨e, -⟩ := e
        have hnt : nt.length ≠ 0 := by
          intro e; exact hno (List.eq_nil_of_length_eq_zero e)
        refine hs.of_upd h (cid := cid) (by rw [hlen]; exact h.lt_len hne) (by omega) (fun i hi => by rw [hcl i hi]; simp) ?_ ?_ ?_
        · rw [← e]; simp [qA, log, setC, hne, c1]
        · have : (db.clause cid).lits.length ≠ 2 := by simp at hlt; omega
          rw [← e]; simp [qB, log, setC, this, c2, hnt]
        · rw [← e]; simp [qL, log, setC, hne, c3]
      · simp at e

theorem stats_foldl {vs : List Nat} : ∀ {db db' : Cdb}, db.WF → Stats k db → vs.foldlM Cdb.removeClause db = some db' → Stats k db' := by
  induction vs with
  | nil => intro db db' _ hs e; simp at e; rw [← e]; exact hs
  | cons v vs ih =>
    intro db db' h hs e
    rw [List.foldlM_cons] at e
    cases hr : db.removeClause v with
    | none => rw [hr] at e; simp at e
    | some d => rw [hr] at e; exact ih (removeClause_spec h hr).1 (stats_remove h hs hr) e

theorem step_stats {db db' : Cdb} (w : db.WF) (ih : Stats k db) (s : DbStep db db') : Stats k db' := by
    cases s with
    | new level vec learnt hn e =>
      obtain ⟨w', ⟨cid, a, b, rfl, rfl, -⟩ | ⟨cid, c, rfl, h0, hlt, hd, hv, h2, -, hle, -, hc, -⟩⟩ := newClause_spec w hn e
      · exact ih
      · obtain ⟨c1, c2, c3, c4⟩ := newClause_counters e
        have hvne : vec ≠ [] := by intro e; rw [e] at h2; simp at h2
        refine ih.of_upd w (cid := cid) hlt c4 (fun i hi => by rw [hc, upd_of_ne _ _ hi]; simp) ?_ ?_ ?_
        · rw [c1, hc]; simp [qA, hd, hv, hvne]
        · rw [c2, hc]; simp [qB, hd, hv]
        · rw [c3, hc]; simp [qL, hd, hv, hvne, hle]
    | remove cid e => exact stats_remove w ih e
    | strengthen cid p hp e => exact stats_elim w ih hp e
    | simplify asg elim cid hl e => exact stats_simp w ih hl e
    | swap cid hl =>
      refine ih.congr rfl (fun i => ?_) rfl rfl rfl
      unfold swapWatch setC; simp only [upd_apply]; split
      · rename_i e; subst e; exact ⟨swapAt_length _ _ _, rfl⟩
      · exact ⟨rfl, rfl⟩
    | restore l idx op =>
      unfold restoreWatch; cases op with
      | none => exact ih
      | some b => exact ih.congr rfl (fun i => ⟨rfl, rfl⟩) rfl rfl rfl
    | move l idx cid old k sf b lk other hi ho ha hb h2 hk hs =>
      obtain ⟨-, hc, -⟩ := moveWatch_spec w hi ho ha hb h2 hk hs
      refine ih.congr ?_ (fun i => ?_) ?_ ?_ ?_
      · unfold moveWatch; simp only [hk, hb]; rfl
      · rw [hc]; simp only [upd_apply]; split
        · rename_i e; subst e; exact ⟨swapAt_length _ _ _, rfl⟩
        · exact ⟨rfl, rfl⟩
      · unfold moveWatch; simp only [hk, hb]; rfl
      · unfold moveWatch; simp only [hk, hb]; rfl
      · unfold moveWatch; simp only [hk, hb]; rfl
    | reduce level victims e =>
      refine stats_foldl (wf_rerank w level) ?_ e
      refine ih.congr rfl (fun i => ?_) rfl rfl rfl
      unfold rerank; simp only []; split <;> exact ⟨rfl, rfl⟩

theorem reach_stats {db : Cdb} (h : DbReach db) : Stats 0 db := by
  induction h with
  | new => exact ⟨rfl, rfl, rfl⟩
  | step hr s ih => exact step_stats (reach_wf hr) ih s

end Cdb
end Splr
