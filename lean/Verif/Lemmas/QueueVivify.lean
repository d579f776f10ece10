import Verif.Lemmas.QueueLoopMain
import Verif.Lemmas.Whole
import Verif.Model.QueueWhole
/-! The solver with its own choices and the array queue: vivification and conflicts. -/
namespace Splr
open Stk QStk Heap Stage

/-! ## the length of the table of clauses -/

theorem removeClause_len {db db' : Cdb} {cid : Nat} (e : db.removeClause cid = some db') : db'.len = db.len := by
  unfold Cdb.removeClause at e
  split at e
  · cases e
    simp only [Cdb.blRemove, Cdb.rmW, Cdb.log]
    repeat' split
    all_goals rfl
  · cases e

theorem newClause_len {db db' : Cdb} {level : Nat → Nat} {vec : Cls} {learnt : Bool} {rf : RefClause} (e : db.newClause level vec learnt = some (db', rf)) :
    db.len ≤ db'.len := by
  cases rf with
  | clause cid => exact (Cdb.newClause_counters e).2.2.2
  | _ =>
    unfold Cdb.newClause at e
    split at e
    · split at e
      · simp only [Option.some.injEq, Prod.mk.injEq] at e
        obtain ⟨rfl, -⟩ := e
        exact Nat.le_refl _
      · simp at e
    · cases e

theorem assignRootRes_len {s : Stk} {db : Cdb} {l : Lit} {a : DS} (e : s.assignRootRes db l = .ok a) : a.1.len = db.len := by
  unfold Stk.assignRootRes at e
  split at e
  · cases e; rfl
  · cases e

theorem vivApply_len {x a : DS} {cid : Nat} {learnt : Bool} {vec : Cls} (e : vivApply x cid learnt vec = .ok a) : x.1.len ≤ a.1.len := by
  unfold vivApply at e
  split at e
  · cases e
  · exact Nat.le_of_eq (assignRootRes_len e).symm
  · split at e
    · cases e
    · rename_i db1 rf hn
      have h1 := newClause_len hn
      rw [removeClause_len (removeRes_ok e).1]
      exact h1

theorem vivDecide_len : ∀ {ls : Cls} {decs : List Lit} {db : Cdb} {s : Stk}, RInv db s →
    match vivDecide ls decs db s with
    | .done db' _ => db'.len = db.len
    | .conflict db' _ _ _ _ => db'.len = db.len
    | _ => True
  | [], decs, db, s, _ => rfl
  | x :: ls, decs, db, s, hi => by
    unfold vivDecide
    cases hv : s.val x with
    | some b =>
      cases b with
      | true => exact vivDecide_len hi
      | false => rfl
    | none =>
      have hn : s.assign x.neg.var = none := by rw [Lit.neg_var]; exact val_none.1 hv
      have hi1 : RInv db (s.assignDecision x.neg) := ⟨hi.wf, hi.inv.assignDecision hn⟩
      have hg := propagateSandbox_good hi1
      simp only []
      cases hp : propagateSandbox db (s.assignDecision x.neg) with
      | ok db1 s1 =>
        rw [hp] at hg
        have hx := hg.allR hi1
        have := vivDecide_len (ls := ls) (decs := decs ++ [x.neg]) hx.1
        have hl := hx.2.1.len
        simp only []
        revert this
        generalize vivDecide ls (decs ++ [x.neg]) db1 s1 = r
        intro this
        cases r with
        | done db' _ => simp only [] at this ⊢; rw [this, hl]
        | conflict db' _ _ _ _ => simp only [] at this ⊢; rw [this, hl]
        | _ => trivial
      | conflict db1 s1 cl rs =>
        rw [hp] at hg
        exact (hg.1.allR hi1).2.1.len
      | _ => trivial

theorem propRemains_len {x a : DS} (h : KT x) (e : propRemains x = .ok a) : a.1.len = x.1.len := by
  unfold propRemains at e
  split at e
  · exact sandbox_len h e
  · cases e; rfl

/-! ## vivification -/

/-- The trails agree, and the attempts ended in the same way. -/
def TRel (u : DS × Tried) (v : DQ × Tried) : Prop := DRel u.1 v.1 ∧ v.2 = u.2

theorem vivTry_simA {x : DS} {y : DQ} {cid : Nat} (h : KT x) (hy : DRel x y) (hc : 1 ≤ cid ∧ cid < x.1.len) :
    RRel TRel (vivTry x cid) (vivTryA y cid) ∧ ∀ a, vivTry x cid = .ok a → x.1.len ≤ a.1.1.len := by
  obtain ⟨db, s⟩ := x
  obtain ⟨db', x⟩ := y
  obtain ⟨rfl, hx⟩ := hy
  simp only [] at hx hc
  unfold vivTry vivTryA
  simp only []
  have t0 : Tr true true db' s db' s.backtrackSandbox := Tr.backtrackSandbox h.rinv
  have h0 : KT (db', s.backtrackSandbox) := ⟨t0.rinv, t0.dom h.dom, h.wt.backtrackSandbox' h.rinv.inv⟩
  obtain ⟨x0, e0, hx0⟩ := hx.backtrackSandbox
  rw [e0, ResQ.lift_some]
  have hpr := propRemains_sim (x := (db', s.backtrackSandbox)) (y := (db', x0)) h0 ⟨rfl, hx0⟩
  cases hp : propRemains (db', s.backtrackSandbox) with
  | ok z =>
    rw [hp] at hpr
    cases hq : propRemainsQ (db', x0) with
    | ok w =>
      rw [hq] at hpr
      have hzw : DRel z w := by cases hpr; assumption
      obtain ⟨hz, hlz, hrz⟩ := kw_propRemains h0 (backtrackSandbox_lim _) hp
      have hlen : z.1.len = db'.len := propRemains_len h0 hp
      have eq0 : ∀ (f : DQ → ResQ (DQ × Tried)), (ResQ.ok w).bind f = f w := fun _ => rfl
      rw [Res.bind_okk, eq0]
      rw [hzw.db, okC_of (db := z.1) (i := cid) ⟨hc.1, by omega⟩, ResQ.chk_true]
      split
      · exact ⟨.ok ⟨hzw, rfl⟩, fun a e => by cases e; exact Nat.le_of_eq hlen.symm⟩
      rename_i hdead
      have hne : (z.1.clause cid).lits ≠ [] := by simpa [Cl.dead] using hdead
      have hs := vivDecide_sim (ls := (z.1.clause cid).lits) (decs := []) (fun x hx => hz.dom.cl cid x hx) hz hrz hzw.rel
      have hcf := fun db1 s1 x1 decs l rs => vivConflict_sim (z := z) (cid := cid) (db1 := db1) (s1 := s1) (x1 := x1) (decs := decs) (l := l) (rs := rs) hz hlz hrz hne
      have hl2 := vivDecide_len (ls := (z.1.clause cid).lits) (decs := []) hz.rinv
      revert hs hcf hl2
      generalize vivDecide (z.1.clause cid).lits [] z.1 z.2 = r
      generalize vivDecideQ (z.1.clause cid).lits [] z.1 w.2 = r'
      intro hs hcf hl2
      cases hs with
      | done hs => exact ⟨.ok ⟨⟨rfl, hs⟩, rfl⟩, fun a e => by cases e; simp only [] at hl2; simp only []; omega⟩
      | panic => exact ⟨.panic, fun a e => by cases e⟩
      | fuel => exact ⟨.fuel, fun a e => by cases e⟩
      | @conflict db1 s1 x1 decs l rs hs =>
        have hc2 := hcf db1 s1 x1 decs l rs rfl hs
        simp only [] at hl2 ⊢
        have hmatch : (match vivConflicting db1 cid (z.1.clause cid).lits decs l rs with
            | none => (.panic : Res (DS × Tried))
            | some none => .ok ((db1, s1.backtrackSandbox), .hit)
            | some (some conf) =>
              match analyzeSandbox db1 s1 decs conf with
              | none => .panic
              | some vec => (vivApply (db1, s1.backtrackSandbox) cid (z.1.clause cid).learnt vec).bind fun z => .ok (z, .hit)) =
            (match vivConflicting db1 cid (z.1.clause cid).lits decs l rs with
            | none => (.panic : Res DS)
            | some none => .ok (db1, s1.backtrackSandbox)
            | some (some conf) =>
              match analyzeSandbox db1 s1 decs conf with
              | none => .panic
              | some vec => vivApply (db1, s1.backtrackSandbox) cid (z.1.clause cid).learnt vec).bind fun z => .ok (z, .hit) := by
          cases vivConflicting db1 cid (z.1.clause cid).lits decs l rs with
          | none => rfl
          | some o =>
            cases o with
            | none => rfl
            | some conf => simp only []; cases analyzeSandbox db1 s1 decs conf <;> rfl
        refine ⟨?_, fun a e => ?_⟩
        · have k := hc2.bind (S := TRel) (f := fun z => .ok (z, Tried.hit)) (g := fun z => .ok (z, Tried.hit)) fun a b _ hab => .ok ⟨hab, rfl⟩
          exact Eq.mpr (congrArg (fun t => RRel TRel t _) hmatch) k
        replace e := hmatch.symm.trans e
        obtain ⟨u, e1, e2⟩ := Res.bind_ok e
        cases e2
        simp only []
        split at e1
        · cases e1
        · cases e1; simp only []; omega
        · split at e1
          · cases e1
          · have := vivApply_len e1
            simp only [] at this
            omega
    | _ => rw [hq] at hpr; cases hpr
  | _ =>
    rw [hp] at hpr
    revert hpr
    generalize propRemainsQ (db', x0) = r'
    intro hpr
    cases hpr
    refine ⟨?_, fun a e => by cases e⟩
    first | exact .unsat ‹_› | exact .err | exact .panic | exact .fuel

theorem kw_vivTry {x : DS} {cid : Nat} {a : DS × Tried} (h : KT x) (e : vivTry x cid = .ok a) : KT a.1 := by
  refine kw_vivOne (x := x) (cid := cid) h ?_
  rw [vivTry_one, e]; rfl

theorem vivLoopLim_simA {limit : Nat} : ∀ {cids : List Nat} {n : Nat} {x : DS} {y : DQ}, KT x → DRel x y → (∀ c ∈ cids, 1 ≤ c ∧ c < x.1.len) →
    RRel DRel (vivLoopLim limit cids n x) (vivLoopLimA limit cids n y) ∧ ∀ a, vivLoopLim limit cids n x = .ok a → KT a
  | [], _, x, y, hk, hy, _ => ⟨.ok hy, fun a e => by cases e; exact hk⟩
  | cid :: cids, n, x, y, hk, hy, hc => by
    unfold vivLoopLim vivLoopLimA
    obtain ⟨h1, h2⟩ := vivTry_simA hk hy (hc cid (by simp))
    have h3 := fun a => kw_vivTry (x := x) (cid := cid) (a := a) hk
    revert h1 h2 h3
    generalize vivTry x cid = r
    generalize vivTryA y cid = r'
    intro h1 h2 h3
    cases h1 with
    | @ok a b hab =>
      obtain ⟨d, t⟩ := a
      obtain ⟨d', t'⟩ := b
      obtain ⟨hd, ht⟩ := hab
      simp only [] at hd ht
      subst ht
      have hk1 := h3 _ rfl
      have hl := h2 _ rfl
      simp only [] at hk1 hl
      have hc1 : ∀ c ∈ cids, 1 ≤ c ∧ c < d.1.len := fun c hm => ⟨(hc c (by simp [hm])).1, by have := (hc c (by simp [hm])).2; omega⟩
      simp only [Res.bind, ResQ.bind]
      cases t' with
      | dead => exact vivLoopLim_simA hk1 hd hc1
      | hit => exact vivLoopLim_simA hk1 hd hc1
      | rest =>
        simp only []
        split
        · exact ⟨.ok hd, fun a e => by cases e; exact hk1⟩
        · exact vivLoopLim_simA hk1 hd hc1
    | unsat h => exact ⟨.unsat h, fun a e => by cases e⟩
    | err => exact ⟨.err, fun a e => by cases e⟩
    | panic => exact ⟨.panic, fun a e => by cases e⟩
    | fuel => exact ⟨.fuel, fun a e => by cases e⟩

theorem vivifyAll_simA {limit : Nat} {first : Bool} {n : Nat} {used : Nat → Nat} {x : DS} {y : DQ} (h : KT x) (hl : x.2.lim = []) (hy : DRel x y) :
    RRel DRel (vivifyAll limit first n used x) (vivifyAllA limit first n used y) := by
  unfold vivifyAll vivifyAllA
  refine (propRemains_sim h hy).bind fun a b ea hab => ?_
  obtain ⟨ha, hla, -⟩ := kw_propRemains h hl ea
  have e2 : b.2.s.numVars = a.2.numVars := by rw [← hab.rel.same]
  simp only []
  rw [hab.db, e2]
  have hids : ∀ c ∈ (if first = true then (firstTargets a.1 a.2.numVars limit).map Prod.snd else (laterTargets a.1 used n limit).map Prod.snd).reverse, 1 ≤ c ∧ c < a.1.len := by
    intro c hc
    rw [List.mem_reverse] at hc
    split at hc
    · have := (firstIds_ok a.1 a.2.numVars limit).2.1 c hc
      exact ⟨this.1, this.2.1⟩
    · have := (laterIds_ok a.1 used n limit).2.1 c hc
      exact ⟨this.1, this.2.1⟩
  revert hids
  generalize (if first = true then (firstTargets a.1 a.2.numVars limit).map Prod.snd else (laterTargets a.1 used n limit).map Prod.snd).reverse = ts
  intro hids
  split
  · exact .ok hab
  obtain ⟨k1, k2⟩ := vivLoopLim_simA (limit := limit) (n := 0) ha hab hids
  refine k1.bind fun c d ec hcd => ?_
  have hc := k2 c ec
  obtain ⟨x0, e0, hx0⟩ := hcd.rel.backtrackSandbox
  rw [e0, ResQ.lift_some]
  have t0 : Tr true true c.1 c.2 c.1 c.2.backtrackSandbox := Tr.backtrackSandbox hc.rinv
  have h0 : KT (c.1, c.2.backtrackSandbox) := ⟨t0.rinv, t0.dom hc.dom, hc.wt.backtrackSandbox' hc.rinv.inv⟩
  refine (propRemains_sim (x := (c.1, c.2.backtrackSandbox)) (y := (d.1, x0)) h0 ⟨hcd.db, hx0⟩).bind fun u v eu huv => ?_
  obtain ⟨hu, hlu, -⟩ := kw_propRemains h0 (backtrackSandbox_lim _) eu
  exact clearAsserted_sim hu hlu huv

/-! ## conflicts -/

/-- The trails and the numbers agree. -/
inductive HRelW : HResW → HResA → Prop
  | ok {db : Cdb} {s : Stk} {x : QStk} {k : Nat} (h : QRel s x) : HRelW (.ok db s k) (.ok db x k)
  | unsat {db : Cdb} {s : Stk} {x : QStk} (h : QRel s x) : HRelW (.unsat db s) (.unsat db x)
  | panic : HRelW .panic .panic

theorem learnUnit_simW {db : Cdb} {s : Stk} {x : QStk} (h : QRel s x) (low : Nat → Bool) {l0 : Lit} (hl : 1 ≤ l0.var ∧ l0.var ≤ s.numVars) :
    HRelW (learnUnitW db s low l0) (learnUnitA db x low l0) := by
  have e1 : x.s.val l0 = s.val l0 := by rw [← h.same]; rfl
  have e2 : x.s.level = s.level := by rw [← h.same]
  unfold learnUnitW learnUnitA
  rw [if_pos (okV_of h hl), e1, e2]
  split
  · exact .panic
  split
  · exact .unsat h
  obtain ⟨y, ey, hy⟩ := h.assignRoot low hl
  rw [ey]
  revert hy
  generalize s.assignRoot low l0 = z
  obtain ⟨z1, z2⟩ := z
  intro hy
  cases z2
  · exact .panic
  · exact .ok hy

theorem learnClause_simW {db : Cdb} {s : Stk} {x : QStk} (h : QRel s x) (g : Gs db s) (low : Nat → Bool) (drift : Bool) {v : Cls}
    (hv : ∀ q ∈ v, s.assign q.var ≠ none) (lv : Nat) : HRelW (learnClauseW db s low drift v lv) (learnClauseA db x low drift v lv) := by
  have hrw : rewardC db x v = true := by
    refine List.all_eq_true.2 fun l hl => ?_
    rw [Bool.and_eq_true]
    refine ⟨g.okV h (hv l hl), ?_⟩
    have e2 : x.s.reason = s.reason := by rw [← h.same]
    rw [e2]
    cases hr : s.reason l.var with
    | none => exact absurd hr (g.rn _ (hv l hl))
    | decision k => rfl
    | binary m => exact okV_of h (g.bn _ m hr)
    | impl cid =>
      simp only [Bool.and_eq_true]
      exact ⟨okC_of (g.rs _ cid hr).1, List.all_eq_true.2 fun m hm => okV_of h (g.rg.cl _ m hm)⟩
  unfold learnClauseW learnClauseA
  simp only []
  rw [if_pos hrw]
  generalize (drift && decide (0 < lv) && decide (2 < v.length)) = dr
  have hx : ∃ x1, (if dr = true then (x.cancelUntilQ low (lv - 1)).bind clearSavedQ else x.cancelUntilQ low lv) = some x1 ∧
      QRel (if dr = true then (s.cancelUntil low (lv - 1)).clearSaved else s.cancelUntil low lv) x1 ∧
      (if dr = true then (s.cancelUntil low (lv - 1)).clearSaved else s.cancelUntil low lv).level = s.level ∧
      (if dr = true then (s.cancelUntil low (lv - 1)).clearSaved else s.cancelUntil low lv).numVars = s.numVars := by
    cases dr with
    | true =>
      obtain ⟨y, ey, hy⟩ := h.cancelUntil low (lv - 1)
      obtain ⟨z, ez, hz, -⟩ := hy.clearSaved
      exact ⟨z, by simp [ey, ez], by simpa using hz, cancelUntil_fixed s low (lv - 1)⟩
    | false =>
      obtain ⟨y, ey, hy⟩ := h.cancelUntil low lv
      exact ⟨y, by simp [ey], by simpa using hy, cancelUntil_fixed s low lv⟩
  obtain ⟨x1, e1, h1, l1, n1⟩ := hx
  rw [e1]
  revert h1 l1 n1
  generalize (if dr = true then (s.cancelUntil low (lv - 1)).clearSaved else s.cancelUntil low lv) = s1
  intro h1 l1 n1
  simp only []
  have hin : ∀ q ∈ v, 1 ≤ q.var ∧ q.var ≤ s1.numVars := fun q hq => by rw [n1]; exact g.as _ (hv q hq)
  have ex1 : x1.s.level = s1.level := by rw [← h1.same]
  have ex2 : x1.s.numVars = s1.numVars := by rw [← h1.same]
  rw [if_pos (List.all_eq_true.2 fun l hl => by
    rw [Bool.and_eq_true]
    refine ⟨okV_of h1 (hin l hl), ?_⟩
    rw [ex1, ex2, l1, n1]; simpa using g.lw l.var), ex1]
  rcases v with _ | ⟨l0, _ | ⟨l1', tl⟩⟩
  · exact .panic
  · exact .panic
  simp only []
  have asg : ∀ (db1 : Cdb) (r : Reason) (k : Nat), HRelW (.ok db1 (s1.assignImpl l0 r lv) k) (match x1.assignImplQ l0 r lv with | .none => .panic | some x2 => .ok db1 x2 k) := by
    intro db1 r k
    obtain ⟨y, ey, hy⟩ := h1.assignImpl (hin l0 (by simp)) r lv
    rw [ey]
    exact .ok hy
  cases hn : db.newClause s1.level (l0 :: l1' :: tl) true with
  | none => exact .panic
  | some y =>
    obtain ⟨db1, rf⟩ := y
    cases rf with
    | clause cid =>
      simp only []
      cases dr with
      | true => exact .ok h1
      | false => exact asg db1 _ _
    | registered cid =>
      simp only []
      cases dr with
      | true => exact .ok h1
      | false => exact asg db1 _ _
    | dead => exact .panic
    | emptyClause => exact .panic
    | unit l => exact .panic

theorem handleConflict_simW {db : Cdb} {s : Stk} {x : QStk} (h : QRel s x) (g : Gs db s) (low : Nat → Bool) (rr : Option Nat) (drift : Bool) {l : Lit}
    {r : Reason} (hl : s.assign l.var ≠ none) (hr : ∀ q ∈ antecedents db r, s.assign q.var ≠ none)
    (hc : ∀ cid, r = .impl cid → 1 ≤ cid ∧ cid < db.len) :
    HRelW (handleConflictW db s low rr drift l r) (handleConflictA db x low rr drift l r) := by
  have e2 : x.s.level = s.level := by rw [← h.same]
  have er : rootConflict db x.s r = rootConflict db s r := by
    obtain ⟨hp, e⟩ := h.of
    rw [e]; cases r <;> rfl
  have hrc : rootC db x r = true := by
    cases r with
    | impl cid =>
      unfold rootC
      simp only [Bool.and_eq_true]
      exact ⟨okC_of (hc cid rfl), List.all_eq_true.2 fun m hm => okV_of h (g.rg.cl _ m hm)⟩
    | _ => rfl
  obtain ⟨k1, k2⟩ := g.analyze h hl hr hc
  unfold handleConflictW handleConflictA
  rw [if_pos hrc, er, k1, e2]
  split
  · exact .unsat h
  cases hk : conflictAnalyze db s l r with
  | none => exact .panic
  | some y =>
    obtain ⟨v, lv, f⟩ := y
    have hv := k2 v lv f hk
    rcases v with _ | ⟨l0, _ | ⟨l1, tl⟩⟩
    · exact .unsat h
    · exact learnUnit_simW h low (g.as _ (hv l0 (by simp)))
    · exact learnClause_simW h (g.rerank _ rr) low drift hv lv

theorem conflict_simW {cfg : Cfg} {F : Form} {db : Cdb} {s : Stk} {x : QStk} {l : Lit} {r : Reason} (h : Conflict cfg F db s l r) (hx : QRel s x)
    (low : Nat → Bool) (rr : Option Nat) (drift : Bool) : HRelW (handleConflictW db s low rr drift l r) (handleConflictA db x low rr drift l r) := by
  obtain ⟨p, d, hc, -⟩ := h.inv
  have g := Gs.of (C66_in_bounds (.conflict h)) p.inv d
  obtain ⟨-, hr⟩ := C66_conflicts h
  refine handleConflict_simW hx g low rr drift ?_ ?_ ?_
  · cases r with
    | binary m => exact tr_assigned (l := l.neg) hc.2.1
    | impl cid =>
      obtain ⟨⟨rest, e⟩, ha⟩ := hc
      exact tr_assigned (l := l.neg) (ha l (by rw [e]; simp))
    | none => exact hc.elim
    | decision k => exact hc.elim
  · intro q hq
    cases r with
    | binary m => simp only [antecedents, List.mem_singleton] at hq; subst hq; exact tr_assigned hc.2.2
    | impl cid =>
      simp only [antecedents] at hq
      exact tr_assigned (l := q.neg) (hc.2 q (List.mem_of_mem_drop hq))
    | none => exact hc.elim
    | decision k => exact hc.elim
  · rintro cid rfl
    exact ⟨hr.1, hr.2.1⟩

end Splr
