import Verif.Lemmas.WatchSearch
import Verif.Lemmas.EndsSearch
import Verif.Props.C03_C11_Search
/-!
# C07: unit propagation is complete

When a propagation ends without a conflict, every clause the solver holds has a true literal or two unassigned ones. This is an
invariant of the watched literals over all decisions, backtracks, learnt clauses, reductions, vivifications and subsumptions.
The eliminator can break it: a resolvent may be watched at a literal that has been propagated as false already
(`C07_violated`).
-/
namespace Splr
open Stk

/-- `c` is neither falsified nor one unassigned literal short of it: it has a true literal, or two unassigned ones. -/
def Quiet (s : Stk) (c : Cls) : Prop := (∃ l ∈ c, Holds s l) ∨ ∃ a ∈ c, ∃ b ∈ c, a ≠ b ∧ Open s a ∧ Open s b

/-- No false literal is left in a clause that is not satisfied. -/
def Swept (db : Cdb) (s : Stk) : Prop := ∀ c, Held db c → (∃ l ∈ c, Fails s l) → ∃ l ∈ c, Holds s l

/-- The commands of the eliminator that neither shorten nor create a clause. -/
def ECmd.Keeps (c : ECmd) : Prop := c = .propagate ∨ (∃ i j, c = .subsume i j) ∨ ∃ v b, c = .retain v b

/-- The outcome `y` of an elimination with the commands `cmds` is tidy: the eliminator is disabled, or no command shortens or
creates a clause, or no false literal is left in a clause that is not satisfied. -/
def Tidy (cfg : Cfg) (cmds : List ECmd) (y : Sol) : Prop := cfg.enable = false ∨ (∀ c ∈ cmds, c.Keeps) ∨ Swept y.db y.s

/-- `Head` (src/solver/search.rs:236), restricted to the runs in which every elimination is tidy. -/
inductive TidyHead (cfg : Cfg) (F : Form) : Sol → Prop
  | start {x y : Sol} {p : Pre} (h : Built F x) (e : preprocess cfg p x = .ok y) (ht : Tidy cfg p.cmds y) : TidyHead cfg F y
  | step {x y : Sol} {o : Orc} (h : TidyHead cfg F x) (hr : x.s.running = true) (e : searchStep cfg o x = .ok y)
      (ht : ∀ st, o.stage = some st → st.cycle = true → st.segment = true → Tidy cfg st.cmds y) : TidyHead cfg F y

theorem TidyHead.head {cfg : Cfg} {F : Form} {x : Sol} (h : TidyHead cfg F x) : Head cfg F x := by
  induction h with
  | start h e _ => exact .start h e
  | step _ hr e _ ih => exact .step ih hr e

theorem Head.tidy {cfg : Cfg} {F : Form} {x : Sol} (hen : cfg.enable = false) (h : Head cfg F x) : TidyHead cfg F x := by
  induction h with
  | start h e => exact .start h e (.inl hen)
  | step _ hr e ih => exact .step ih hr e fun _ _ _ _ => .inl hen

theorem Tidy.tended {cfg : Cfg} {cmds : List ECmd} {y : Sol} (h : Tidy cfg cmds y) : Tended cfg cmds y := by
  rcases h with h | h | h
  · exact .inl h
  · refine .inr (.inl fun c hc => ?_)
    rcases h c hc with rfl | ⟨i, j, rfl⟩ | ⟨v, b, rfl⟩ <;> trivial
  · refine .inr (.inr fun i w hw ht => ?_)
    exact h _ ⟨List.ne_nil_of_mem hw, i, rfl⟩ ⟨w, hw, by unfold Fails; unfold Stk.tr at ht; simpa using ht⟩

theorem TidyHead.wt {cfg : Cfg} {F : Form} {x : Sol} (h : TidyHead cfg F x) : Wt No x.db x.s := by
  induction h with
  | start h e ht => exact preprocess_wt h e ht.tended
  | step h hr e ht ih =>
    obtain ⟨F', -, hs⟩ := h.head.sok
    exact searchStep_wt hs ih e fun st h1 h2 h3 => (ht st h1 h2 h3).tended

theorem Wt.quiet {db : Cdb} {s : Stk} (hw : db.WF) (h : Wt No db s) (hq : s.remains = false) {c : Cls} (hc : Held db c) : Quiet s c := by
  obtain ⟨hne, i, rfl⟩ := hc
  rcases h.closed hw (by simpa [Stk.remains] using hq) hne with ⟨t, t1, t2⟩ | ⟨a, b, h1, h2, h3, h4, h5⟩
  · exact .inl ⟨t, t1, t2⟩
  · exact .inr ⟨a, h2, b, h3, h1, h4, h5⟩

/-- **C07 (partial).** In the main loop: when a propagation ends without a conflict, no clause the solver holds is falsified, and
none has all its literals false but one that is unassigned. Missing: runs with an elimination that is not tidy, for which the
claim is false, see `C07_violated`. -/
theorem C07_propagation_complete_partial {cfg : Cfg} {F : Form} {x : Sol} (h : TidyHead cfg F x) {o : Orc} {s : Stk} (hd : decideStep o x.s = some s)
    {q : Nat} {db' : Cdb} {s' : Stk} (e : propagate q x.db s = .ok db' s') {c : Cls} (hc : Held db' c) : Quiet s' c := by
  obtain ⟨F', -, hs⟩ := h.head.sok
  obtain ⟨p1, -⟩ := decideStep_spec (k := true) (r := false) hs.pinv hs.dom hd
  have hw := propagate_wt (q := q) p1 (decideStep_wt hs.pinv h.wt hd)
  have hg := propagate_good (q := q) p1
  have hq := (propagate_complete p1 e).2.2
  rw [e] at hw hg
  refine Wt.quiet (hg.all p1).1.wf hw ?_ hc
  simp [Stk.remains]; omega

/-- The same for every run without the eliminator: any clauses, any decisions, any backtracks, learnt clauses, restarts,
reductions and vivifications. -/
theorem C07_without_eliminator {cfg : Cfg} (hen : cfg.enable = false) {F : Form} {db : Cdb} {s : Stk} (h : Decided cfg F db s)
    {q : Nat} {db' : Cdb} {s' : Stk} (e : propagate q db s = .ok db' s') {c : Cls} (hc : Held db' c) : Quiet s' c := by
  obtain ⟨hh, -, hd⟩ := h
  exact C07_propagation_complete_partial (hh.tidy hen) hd e hc

/-! ## all runs, with the eliminator -/

theorem Wt.quiet_but {Z : Lit → Prop} {db : Cdb} {s : Stk} (hw : db.WF) (h : Wt (fun _ w => Z w) db s) (hq : s.trail.length ≤ s.qhead) {c : Cls} (hc : Held db c)
    (hz : ∀ w ∈ c, ¬ Z w) : Quiet s c := by
  obtain ⟨hne, i, rfl⟩ := hc
  by_contra hcon
  unfold Quiet at hcon
  rw [not_or] at hcon
  obtain ⟨h1, h2⟩ := hcon
  have h2l := hw.len2 i hne
  match hl : (db.clause i).lits, h2l with
  | x :: y :: tl, _ =>
    have hop : ∀ w, W2 (db.clause i).lits w → s.assign w.var = none := by
      intro w hw
      have hm : w ∈ (db.clause i).lits := hw.elim List.mem_of_getElem? List.mem_of_getElem?
      rcases tr_cases s w with ht | ht | ht
      · exact absurd ⟨w, hm, ht⟩ h1
      · obtain ⟨t, t1, t2, _⟩ := h.wat i w hw ⟨ht, by rw [List.drop_eq_nil_of_le hq]; simp⟩ (hz w hm)
        exact absurd ⟨t, t1, t2⟩ h1
      · exact ht
    refine h2 ⟨x, by rw [hl]; simp, y, by rw [hl]; simp, ?_, hop x (by rw [hl]; exact .inl rfl), hop y (by rw [hl]; exact .inr rfl)⟩
    have := Cdb.nodup_of_map_var (hw.nd i)
    rw [hl] at this
    rintro rfl; simp at this

/-- **C07 (partial), every run.** Whatever the eliminator did before: when a propagation in the main loop ends without a conflict, a
clause the solver holds is neither falsified nor one unassigned literal short of it, unless one of its literals is false for good.
Missing: the clauses that contain a literal that is false at the root level, for which the claim is false, see `C07_violated`. -/
theorem C07_clean_clauses_partial {cfg : Cfg} {F : Form} {db : Cdb} {s : Stk} (h : Decided cfg F db s) {q : Nat} {db' : Cdb} {s' : Stk}
    (e : propagate q db s = .ok db' s') {c : Cls} (hc : Held db' c) (hf : ∀ l ∈ c, ¬ Fact s' l.neg) : Quiet s' c := by
  obtain ⟨hh, -, hd⟩ := h
  obtain ⟨F', -, hs⟩ := hh.sok
  obtain ⟨Z, hw, hn⟩ := hh.lv
  obtain ⟨p1, t1, -⟩ := decideStep_spec (k := true) (r := false) hs.pinv hs.dom hd
  have hpw := propagate_wtB (q := q) p1 (decideStep_wt hs.pinv hw hd)
  have hg := propagate_good (q := q) p1
  have hq := (propagate_complete p1 e).2.2
  rw [e] at hpw hg
  have n2 : Nz Z db' s' := hg.nz p1.wf (hn.decideStep (fun l => t1.root l) hd)
  exact Wt.quiet_but (hg.all p1).1.wf hpw (by omega) hc fun w hw hz => hf w hw (n2.root w hz)

/-- At the root level the watches and the caches fit, whatever was done before, the eliminator's work included. -/
theorem Inner.kw {cfg : Cfg} {F : Form} {d : DS} {e : Option El} (h : Inner cfg F d e) : KW (fun _ => True) d ∧ d.2.lim = [] := by
  have all : ∀ {E : Nat → Lit → Prop} {db : Cdb} {s : Stk}, Wt E db s → Wt (fun _ _ => True) db s := fun h => h.mono fun _ _ _ => trivial
  have up : ∀ {d : DS}, Dom d.1 d.2 → CE True d → KW (fun _ => True) d ∧ d.2.lim = [] := fun hd h => ⟨⟨⟨h.wf, h.inv⟩, hd, h.wt⟩, h.lim⟩
  have down : ∀ {d : DS}, KW (fun _ => True) d ∧ d.2.lim = [] → CE True d := fun h => ⟨h.1.rinv.wf, h.1.rinv.inv, h.2, h.1.wt⟩
  have dom : ∀ {d : DS} {e : Option El}, Inner cfg F d e → Dom d.1 d.2 := fun h => by
    obtain ⟨F', -, hk⟩ := h.ok
    rename_i d e
    cases e with
    | none => obtain ⟨recs, g, -⟩ := hk; exact g.dom
    | some e => obtain ⟨recs, s0, recs', g, -⟩ := hk; exact g.dom
  induction h with
  | built h => exact ⟨⟨h.bok.1.rinv, h.bok.1.dom, all (h.bw.wt h.bok.1.lim)⟩, h.bok.1.lim⟩
  | @restart x h low =>
    obtain ⟨F', -, hs⟩ := h.sok
    obtain ⟨Z, hw, -⟩ := h.lv
    have t1 : Tr true false x.db x.s x.db (x.s.restart low) := Tr.cancelUntil hs.pinv.rinv low 0
    exact ⟨⟨t1.rinv, t1.dom hs.dom, all (hw.cancelUntil' hs.pinv.inv low 0)⟩, cancelUntil_lim0⟩
  | clearAsserted _ e ih => exact kw_clearAsserted ih.1 ih.2 e
  | reduce _ e ih =>
    unfold Cdb.reduceRes at e
    split at e
    · cases e
    · rename_i db1 hr
      cases e
      have t2 := (reduce_tr (r := true) ih.1.rinv ih.2 hr).1
      exact ⟨⟨t2.rinv, t2.dom ih.1.dom, reduce_wt ih.1.rinv.wf ih.1.wt hr⟩, ih.2⟩
  | vivify _ e ih => exact kw_vivify ih.1 ih.2 e
  | propagate _ e ih => exact kw_propagate ih.1 ih.2 e
  | prepare h e ih => exact up (dom (.prepare h e)) (ce_prepare e (down ih))
  | pure h e1 e2 e3 e4 =>
    have k1 := kw_vivify ⟨h.bok.1.rinv, h.bok.1.dom, all (h.bw.wt h.bok.1.lim)⟩ h.bok.1.lim e1
    have k2 := kw_propagate k1.1 k1.2 e2
    exact up (dom (.pure h e1 e2 e3 e4)) (ce_pureLoop (ce_prepare e3 (down k2)) e4)
  | command h e ih => exact up (dom (.command h e)) (ce_runCmd (.inl trivial) (down ih) e)
  | stop h ih =>
    exact up (dom (.stop h)) (CE.flags (down ih) (flags_unlinkAll _) rfl)

/-- The states in which `propagate_sandbox` is called: at the root level, also inside the eliminator, and in the vivification of a
clause (src/cdb/vivify.rs:71-80), where literals are assigned and propagated in turn. -/
inductive Sandbox (cfg : Cfg) (F : Form) : Cdb → Stk → Prop
  | start {d : DS} {e : Option El} (h : Inner cfg F d e) : Sandbox cfg F d.1 d.2
  | assign {db : Cdb} {s : Stk} {l : Lit} (h : Sandbox cfg F db s) (hr : s.remains = false) (hn : s.assign l.var = none) :
      Sandbox cfg F db (s.assignDecision l)
  | ok {db db' : Cdb} {s s' : Stk} (h : Sandbox cfg F db s) (e : propagateSandbox db s = .ok db' s') : Sandbox cfg F db' s'

theorem Sandbox.wt {cfg : Cfg} {F : Form} {db : Cdb} {s : Stk} (h : Sandbox cfg F db s) :
    RInv db s ∧ Wt (fun _ w => Root s w.neg) db s := by
  induction h with
  | @start d e h =>
    obtain ⟨k, hl⟩ := h.kw
    exact ⟨k.rinv, k.wt.weaken fun i w _ h2 _ h3 => absurd ⟨h2.1, Inv.level_root k.rinv.inv hl (tr_assigned h2.1)⟩ h3⟩
  | @assign db s l _ hr hn ih =>
    refine ⟨⟨ih.1.wf, ih.1.inv.assignDecision hn⟩, ?_⟩
    refine (ih.2.assignDecision ih.1.inv hr hn).mono fun i w hz => ?_
    have hne : w.neg.var ≠ l.var := by rintro e; exact absurd (e ▸ hn) (tr_assigned hz.1)
    refine ⟨?_, ?_⟩
    · unfold tr; show upd s.assign l.var _ w.neg.var = _; rw [upd_of_ne _ _ hne]; exact hz.1
    · show upd s.level l.var _ w.neg.var = _; rw [upd_of_ne _ _ hne]; exact hz.2
  | @ok db db' s s' _ e ih =>
    have hg := propagateSandbox_good ih.1
    have hw := propagateSandbox_wtB ih.1 ih.2
    rw [e] at hg hw
    refine ⟨(hg.allR ih.1).1, hw.mono fun i w hz => ?_⟩
    exact (hg.trn (k := true) (r := true) ih.1).root _ hz

/-- **C07 (partial), the other propagation, every run.** The same as `C07_clean_clauses_partial` for `propagate_sandbox`. -/
theorem C07_sandbox_clean_partial {cfg : Cfg} {F : Form} {db : Cdb} {s : Stk} (h : Sandbox cfg F db s) {db' : Cdb} {s' : Stk}
    (e : propagateSandbox db s = .ok db' s') {c : Cls} (hc : Held db' c) (hf : ∀ l ∈ c, ¬ Fact s' l.neg) : Quiet s' c := by
  have hq := (propagateSandbox_complete h.wt.1 e).2.2
  exact Wt.quiet_but (Sandbox.ok h e).wt.1.wf (Sandbox.ok h e).wt.2 (by omega) hc fun w hw hz => hf w hw hz

/-! ## the propagation at the root level -/

/-- The states at the root level between the steps of preprocessing and inprocessing, outside the eliminator
(src/solver/search.rs:47-158, 251-378), in runs in which every elimination is tidy. -/
inductive TidyRoot (cfg : Cfg) (F : Form) : DS → Prop
  | built {x : Sol} (h : Built F x) : TidyRoot cfg F (x.db, x.s)
  | restart {x : Sol} (h : TidyHead cfg F x) (low : Nat → Bool) : TidyRoot cfg F (x.db, x.s.restart low)
  | clearAsserted {d d' : DS} (h : TidyRoot cfg F d) (e : clearAsserted d = .ok d') : TidyRoot cfg F d'
  | reduce {d d' : DS} {victims : List Nat} (h : TidyRoot cfg F d) (e : d.1.reduceRes d.2 victims = .ok d') : TidyRoot cfg F d'
  | vivify {d d' : DS} {targets : List Nat} (h : TidyRoot cfg F d) (e : vivify targets d = .ok d') : TidyRoot cfg F d'
  | propagate {d d' : DS} (h : TidyRoot cfg F d) (e : (propagateSandbox d.1 d.2).toRes = .ok d') : TidyRoot cfg F d'

/-- The states during the vivification of a clause (src/cdb/vivify.rs:71-80): from a state at the root level in which nothing
is left to be propagated, literals are assigned and propagated in turn. -/
inductive TidyProbe (cfg : Cfg) (F : Form) : Cdb → Stk → Prop
  | start {d : DS} (h : TidyRoot cfg F d) : TidyProbe cfg F d.1 d.2
  | assign {db : Cdb} {s : Stk} {l : Lit} (h : TidyProbe cfg F db s) (hr : s.remains = false) (hn : s.assign l.var = none) :
      TidyProbe cfg F db (s.assignDecision l)
  | ok {db db' : Cdb} {s s' : Stk} (h : TidyProbe cfg F db s) (e : propagateSandbox db s = .ok db' s') : TidyProbe cfg F db' s'

theorem TidyRoot.kw {cfg : Cfg} {F : Form} {d : DS} (h : TidyRoot cfg F d) : KW (fun _ => False) d ∧ d.2.lim = [] := by
  induction h with
  | built h => exact ⟨⟨h.bok.1.rinv, h.bok.1.dom, h.bw.wt h.bok.1.lim⟩, h.bok.1.lim⟩
  | @restart x h low =>
    obtain ⟨F', -, hs⟩ := h.head.sok
    have t1 : Tr true false x.db x.s x.db (x.s.restart low) := Tr.cancelUntil hs.pinv.rinv low 0
    exact ⟨⟨t1.rinv, t1.dom hs.dom, h.wt.cancelUntil' hs.pinv.inv low 0⟩, cancelUntil_lim0⟩
  | clearAsserted _ e ih => exact kw_clearAsserted ih.1 ih.2 e
  | reduce _ e ih =>
    unfold Cdb.reduceRes at e
    split at e
    · cases e
    · rename_i db1 hr
      cases e
      have t2 := (reduce_tr (r := true) ih.1.rinv ih.2 hr).1
      exact ⟨⟨t2.rinv, t2.dom ih.1.dom, reduce_wt ih.1.rinv.wf ih.1.wt hr⟩, ih.2⟩
  | vivify _ e ih => exact kw_vivify ih.1 ih.2 e
  | propagate _ e ih => exact kw_propagate ih.1 ih.2 e

theorem TidyProbe.wt {cfg : Cfg} {F : Form} {db : Cdb} {s : Stk} (h : TidyProbe cfg F db s) : RInv db s ∧ Wt No db s := by
  induction h with
  | start h => exact ⟨h.kw.1.rinv, h.kw.1.wt⟩
  | assign _ hr hn ih => exact ⟨⟨ih.1.wf, ih.1.inv.assignDecision hn⟩, ih.2.assignDecision ih.1.inv hr hn⟩
  | ok _ e ih =>
    have hg := propagateSandbox_good ih.1
    have hw := propagateSandbox_wt ih.1 ih.2
    rw [e] at hg hw
    exact ⟨(hg.allR ih.1).1, hw⟩

/-- **C07 (partial), the other propagation.** `propagate_sandbox`, at the root level and during vivification, is complete as
well. Missing: the same as in `C07_propagation_complete_partial`, and the propagations inside an elimination. -/
theorem C07_sandbox_complete_partial {cfg : Cfg} {F : Form} {db : Cdb} {s : Stk} (h : TidyProbe cfg F db s) {db' : Cdb} {s' : Stk}
    (e : propagateSandbox db s = .ok db' s') {c : Cls} (hc : Held db' c) : Quiet s' c := by
  have hq := (propagateSandbox_complete h.wt.1 e).2.2
  exact Wt.quiet (TidyProbe.ok h e).wt.1.wf (TidyProbe.ok h e).wt.2 (by simp [Stk.remains]; omega) hc

/-! ## examples -/

/-- A run without elimination commands. -/
theorem TidyHead.search {cfg : Cfg} {F : Form} : ∀ {os : List Orc} {x y : Sol}, TidyHead cfg F x → (∀ o ∈ os, o.stage = none) → search cfg os x = .ok y → TidyHead cfg F y
  | [], x, y, h, _, e => by unfold Splr.search at e; cases e; exact h
  | o :: os, x, y, h, ho, e => by
    unfold Splr.search at e
    split at e
    · rename_i hr
      obtain ⟨z, e1, e2⟩ := Res.bind_ok e
      exact TidyHead.search (.step h hr e1 fun st hst => by rw [ho o (by simp)] at hst; cases hst) (fun o h => ho o (by simp [h])) e2
    · cases e; exact h

/-- The database and the assignment after the propagation in the iteration `o`, after the iterations `os`. -/
def quietOf (cfg : Cfg) (p : Pre) (os : List Orc) (o : Orc) (x : Sol) : Option (Sol × Stk × DS) :=
  match (preprocess cfg p x).bind (search cfg os) with
  | .ok y =>
    match decideStep o y.s with
    | some s =>
      match propagate o.q y.db s with
      | .ok db s' => some (y, s, db, s')
      | _ => none
    | none => none
  | _ => none

theorem quietOf_spec {cfg : Cfg} {p : Pre} {os : List Orc} {o : Orc} {x : Sol} {w : Sol × Stk × DS} (h : quietOf cfg p os o x = some w) :
    (∃ y, preprocess cfg p x = .ok y ∧ search cfg os y = .ok w.1) ∧ decideStep o w.1.s = some w.2.1 ∧ propagate o.q w.1.db w.2.1 = .ok w.2.2.1 w.2.2.2 := by
  unfold quietOf at h
  split at h
  · rename_i y hy
    obtain ⟨z, e1, e2⟩ := Res.bind_ok hy
    split at h
    · rename_i s hs
      split at h
      · rename_i db s' hp; cases h; exact ⟨⟨z, e1, e2⟩, hs, hp⟩
      · cases h
    · cases h
  · cases h

/-- Four decisions of `exDeep`, a conflict, a learnt clause, and the propagation after it. -/
example : ∃ w : Sol × Stk × DS, TidyHead {} (exDeep.map clsOf) w.1 ∧ decideStep plainOrc w.1.s = some w.2.1 ∧
    propagate 100 w.1.db w.2.1 = .ok w.2.2.1 w.2.2.2 ∧ w.2.2.2.trail.length = 4 ∧ (w.2.2.1.clause 10).lits.length = 3 := by
  have h : (quietOf {} plainPre (List.replicate 4 plainOrc) plainOrc (exSolver 11 exDeep)).any (fun w =>
    decide (w.2.2.2.trail.length = 4 ∧ (w.2.2.1.clause 10).lits.length = 3)) = true := by decide +kernel
  obtain ⟨w, hw, h⟩ := (Option.any_eq_true _ _).1 h
  simp only [decide_eq_true_eq] at h
  obtain ⟨⟨y, e1, e2⟩, h2, h3⟩ := quietOf_spec hw
  refine ⟨w, TidyHead.search (.start exDeep_built e1 (.inr (.inl (by simp [plainPre])))) ?_ e2, h2, h3, h⟩
  intro o ho; rw [List.eq_of_mem_replicate ho]; rfl

/-- A state of the main loop in which no false literal occurs is swept: a check of its clauses. -/
theorem Head.swept {cfg : Cfg} {F : Form} {x : Sol} (h : Head cfg F x)
    (hc : (List.range x.db.len).all (fun i => (x.db.clause i).lits.all fun l => x.s.assign l.var != some (!l.pos)) = true) : Swept x.db x.s := by
  obtain ⟨F', -, hs⟩ := h.sok
  rintro c ⟨hne, i, rfl⟩ ⟨l, hl, hf⟩
  have hi : i < x.db.len := by
    by_contra hi
    exact hne (hs.pinv.wf.arena.big i (by omega))
  have := List.all_eq_true.1 (List.all_eq_true.1 hc i (List.mem_range.2 hi)) l hl
  rw [show x.s.assign l.var = some (!l.pos) from hf] at this
  simp at this

/-- A run in which variable 2 of `exDeep` is eliminated; the elimination is tidy. -/
example : ∃ w : Sol × Stk × DS, TidyHead {} (exDeep.map clsOf) w.1 ∧ decideStep plainOrc w.1.s = some w.2.1 ∧
    propagate 100 w.1.db w.2.1 = .ok w.2.2.1 w.2.2.2 ∧ w.1.s.elim 2 = true ∧ w.2.2.2.trail.length = 1 := by
  have h : (quietOf {} { plainPre with cmds := [.elimVar 2] } [] plainOrc (exSolver 11 exDeep)).any (fun w =>
    decide (((List.range w.1.db.len).all (fun i => (w.1.db.clause i).lits.all fun l => w.1.s.assign l.var != some (!l.pos)) = true) ∧
      w.1.s.elim 2 = true ∧ w.2.2.2.trail.length = 1)) = true := by decide +kernel
  obtain ⟨w, hw, h⟩ := (Option.any_eq_true _ _).1 h
  simp only [decide_eq_true_eq] at h
  obtain ⟨⟨y, e1, e2⟩, h2, h3⟩ := quietOf_spec hw
  cases e2
  exact ⟨w, .start exDeep_built e1 (.inr (.inr ((Head.start exDeep_built e1).swept h.1))), h2, h3, h.2⟩

/-- In the probing of `exDeep`, ¬3 is assigned, then ¬9; 10 follows. -/
example : ∃ db s, TidyProbe {} (exDeep.map clsOf) db s ∧ ∃ db' s', propagateSandbox db s = .ok db' s' ∧ s.trail = [⟨3, false⟩, ⟨9, false⟩] ∧ s'.trail = [⟨3, false⟩, ⟨9, false⟩, ⟨10, true⟩] := by
  have h : (match propagateSandbox (exSolver 11 exDeep).db ((exSolver 11 exDeep).s.assignDecision ⟨3, false⟩) with
    | .ok db s => decide (s.remains = false ∧ s.assign 9 = none ∧ s.trail = [⟨3, false⟩]) && (match propagateSandbox db (s.assignDecision ⟨9, false⟩) with
      | .ok _ s' => decide (s'.trail = [⟨3, false⟩, ⟨9, false⟩, ⟨10, true⟩]) | _ => false)
    | _ => false) = true := by decide +kernel
  split at h
  · rename_i db s e
    simp only [Bool.and_eq_true, decide_eq_true_eq] at h
    obtain ⟨⟨h1, h2, h3⟩, h⟩ := h
    split at h
    · rename_i db' s' e'
      simp only [decide_eq_true_eq] at h
      refine ⟨_, _, .assign (.ok (.assign (.start (.built exDeep_built)) (by decide +kernel) (by decide +kernel)) e) h1 h2, _, _, e', ?_, h⟩
      simp [assignDecision, h3]
    · cases h
  · cases h

/-! ## the eliminator -/

/-- Variable 2 has many occurrences: with the limit 1 its occurrence lists are given up. -/
def exLeft : List (List Int) := [[1, -2], [-1, -2], [2, -4, -5], [2, -4, -6], [2, -3, 4], [3, 5, 6]]

/-- Variable 1 is eliminated; its resolvent is the unit -2. It is removed from the clause in its occurrence list, and propagated.
Then variable 3 is eliminated. -/
def leftPre : Pre := { plainPre with cmds := [.elimVar 1, .lifted ⟨2, false⟩ 3, .propagate, .elimVar 3] }

/-- Decide 4, then 5, negatively. -/
def leftOrc : Orc := { plainOrc with phase := fun _ => false }

/-- **C07 is violated.** With the eliminator, a propagation in the main loop can end without a conflict although a clause the
solver holds has all its literals false but one that is unassigned. Here the eliminator is given an occurrence limit of 1, so
that the lists of variable 2 are given up before all its clauses are entered; ¬2 is found, and propagated, before 2 is removed
from all clauses; the resolvent {6, 2, 4, 5} of variable 3 is then watched at 6 and the false literal 2. The decisions ¬4 and ¬5
leave it a unit clause, and 6 is not assigned. -/
theorem C07_violated : ∃ (cfg : Cfg) (F : Form) (db : Cdb) (s : Stk), Decided cfg F db s ∧ ∃ q db' s', propagate q db s = .ok db' s' ∧
    ∃ c a, Held db' c ∧ a ∈ c ∧ Open s' a ∧ ∀ l ∈ c, l ≠ a → Fails s' l := by
  have h : (quietOf { evo := 1 } leftPre [leftOrc] leftOrc (exSolver 6 exLeft)).any (fun w =>
    decide (w.1.s.running = true ∧ (w.2.2.1.clause 2).lits = [⟨6, true⟩, ⟨2, true⟩, ⟨4, true⟩, ⟨5, true⟩] ∧
      w.2.2.2.assign 6 = none ∧ w.2.2.2.assign 2 = some false ∧ w.2.2.2.assign 4 = some false ∧ w.2.2.2.assign 5 = some false)) = true := by decide +kernel
  obtain ⟨w, hw, h⟩ := (Option.any_eq_true _ _).1 h
  simp only [decide_eq_true_eq] at h
  obtain ⟨hr, hc, h6, h2, h4, h5⟩ := h
  obtain ⟨⟨y, e1, e2⟩, e3, e4⟩ := quietOf_spec hw
  have hb : Built (exLeft.map clsOf) (exSolver 6 exLeft) := exBuilt (by decide +kernel)
  refine ⟨_, _, w.1.db, w.2.1, .mk ((Head.start hb e1).search e2) hr e3, _, w.2.2.1, w.2.2.2, e4, _, ⟨6, true⟩, ⟨?_, 2, hc⟩, by simp, ?_, ?_⟩
  · simp
  · simpa [Open] using h6
  · simp [Fails, h2, h4, h5]

/-- In the very run of `C07_violated`, the clause {¬4, ¬5} has no literal that is false for good, and `C07_clean_clauses_partial`
applies to it. -/
example : ∃ (F : Form) (db : Cdb) (s : Stk), Decided { evo := 1 } F db s ∧ ∃ q db' s', propagate q db s = .ok db' s' ∧ s'.trail = [⟨2, false⟩, ⟨4, false⟩, ⟨5, false⟩] ∧
    Held db' [⟨4, false⟩, ⟨5, false⟩] ∧ (∀ l ∈ [(⟨4, false⟩ : Lit), ⟨5, false⟩], ¬ Fact s' l.neg) ∧ Held db' [⟨6, true⟩, ⟨2, true⟩, ⟨4, true⟩, ⟨5, true⟩] ∧ Fact s' ⟨2, false⟩ := by
  have h : (quietOf { evo := 1 } leftPre [leftOrc] leftOrc (exSolver 6 exLeft)).any (fun w =>
    decide (w.1.s.running = true ∧ (w.2.2.1.clause 2).lits = [⟨6, true⟩, ⟨2, true⟩, ⟨4, true⟩, ⟨5, true⟩] ∧ (w.2.2.1.clause 3).lits = [⟨4, false⟩, ⟨5, false⟩] ∧
      w.2.2.2.trail = [⟨2, false⟩, ⟨4, false⟩, ⟨5, false⟩] ∧ w.2.2.2.level 4 = 1 ∧ w.2.2.2.level 5 = 2 ∧ w.2.2.2.assign 2 = some false ∧ w.2.2.2.level 2 = 0)) = true := by decide +kernel
  obtain ⟨w, hw, h⟩ := (Option.any_eq_true _ _).1 h
  simp only [decide_eq_true_eq] at h
  obtain ⟨hr, hc, hc', ht, l4, l5, h2, l2⟩ := h
  obtain ⟨⟨y, e1, e2⟩, e3, e4⟩ := quietOf_spec hw
  have hb : Built (exLeft.map clsOf) (exSolver 6 exLeft) := exBuilt (by decide +kernel)
  refine ⟨_, w.1.db, w.2.1, .mk ((Head.start hb e1).search e2) hr e3, _, w.2.2.1, w.2.2.2, e4, ht, ⟨by simp, 3, hc'⟩, ?_, ⟨by simp, 2, hc⟩, ?_⟩
  · simp [Fact, Lit.neg, l4, l5]
  · exact ⟨h2, l2⟩

/-- The vivification of a clause after the elimination of variables 1 and 3 in the same formula: ¬4 is assigned and propagated. -/
example : ∃ db s, Sandbox { evo := 1 } (exLeft.map clsOf) db s ∧ ∃ db' s', propagateSandbox db s = .ok db' s' ∧ s'.trail = [⟨2, false⟩, ⟨4, false⟩] ∧
    Held db' [⟨4, false⟩, ⟨5, false⟩] ∧ (∀ l ∈ [(⟨4, false⟩ : Lit), ⟨5, false⟩], ¬ Fact s' l.neg) := by
  have h : (match preprocess { evo := 1 } leftPre (exSolver 6 exLeft) with
    | .ok y => decide ((y.s.restart fun _ => false).assign 4 = none ∧ (y.s.restart fun _ => false).remains = false) &&
      (match propagateSandbox y.db ((y.s.restart fun _ => false).assignDecision ⟨4, false⟩) with
      | .ok db' s' => decide (s'.trail = [⟨2, false⟩, ⟨4, false⟩] ∧ (db'.clause 3).lits = [⟨4, false⟩, ⟨5, false⟩] ∧ s'.level 4 = 1 ∧ s'.assign 5 = none) | _ => false)
    | _ => false) = true := by decide +kernel
  have hb : Built (exLeft.map clsOf) (exSolver 6 exLeft) := exBuilt (by decide +kernel)
  split at h
  · rename_i y e
    simp only [Bool.and_eq_true, decide_eq_true_eq] at h
    obtain ⟨⟨h1, h2⟩, h⟩ := h
    split at h
    · rename_i db' s' e'
      simp only [decide_eq_true_eq] at h
      obtain ⟨h3, h4, h5, h6⟩ := h
      refine ⟨_, _, .assign (.start (.restart (.start hb e) fun _ => false)) h2 h1, db', s', e', h3, ⟨by simp, 3, h4⟩, ?_⟩
      simp [Fact, Holds, Lit.neg, h5, h6]
    · cases h
  · cases h

/-- The clause in `C07_violated` is not quiet. -/
theorem not_quiet {s : Stk} {c : Cls} {a : Lit} (ha : Open s a) (h : ∀ l ∈ c, l ≠ a → Fails s l) : ¬ Quiet s c := by
  have hf : ∀ l ∈ c, l ≠ a → s.assign l.var = some (!l.pos) := h
  rintro (⟨l, hl, ht⟩ | ⟨x, hx, y, hy, hxy, ox, oy⟩)
  · by_cases e : l = a
    · subst e; unfold Holds at ht; unfold Open at ha; rw [ha] at ht; cases ht
    · have := hf l hl e; unfold Holds at ht; rw [this] at ht; simp at ht
  · by_cases e : x = a
    · have := hf y hy (fun h => hxy (e.trans h.symm)); unfold Open at oy; rw [this] at oy; cases oy
    · have := hf x hx e; unfold Open at ox; rw [this] at ox; cases ox

end Splr
