import Verif.Lemmas.NoErr
import Verif.Props.C53_C54_Progress
/-!
# C54, C55: `solve` terminates and decides

`timedSolve` (Verif/Model/Timed.lean) is `solve` with the stage manager of the code; everything else the heuristics decide is
still arbitrary.
-/
namespace Splr
open Stk Stage LubySpec

/-! ## C54 -/

/-- The number of iterations after which `solve` has answered, for `n` variables. -/
def answerBound (n : Nat) : Nat := 2 ^ (4 ^ n + n + 1) * (stageBound n + 1)

theorem timedSolve_not_more {F : Form} {x : Sol} (h : Built F x) (cfg : Cfg) (p : Pre) {m : StageManager} (hm : Luby.Inv m.luby) {I : Nat}
    (hI : gainBound x.s.numVars + ones m.luby.index < ones (m.luby.index + I)) {ts : List Tick}
    (hl : (I + 1) * (stageBound x.s.numVars + 1) ≤ ts.length) (low : Nat → Bool) (y : Sol) : timedSolve cfg p m ts low x ≠ .more y := by
  intro e
  unfold timedSolve at e
  split at e
  · rename_i z hz
    obtain ⟨u, e1, e2⟩ := Res.bind_ok hz
    obtain ⟨w, e3, e4⟩ := Res.bind_ok e2
    cases e4
    split at e
    · rename_i hr
      obtain ⟨F', -, hs⟩ := preprocess_any h.bok.1 e1
      obtain ⟨Z, hw, hn⟩ := (preprocess_lv h e1).1
      have h0 : TInv F' x.s.numVars m.luby.index 0 0 Z u 0 (m.initialize 32) :=
        ⟨hs, hw, hn, hm, rfl, by simp [StageManager.initialize], by simp [StageManager.initialize], by simp [StageManager.initialize], by omega⟩
      have := timedLoop_ends (cfg := cfg) hI h0 (by
        have := todo_le Z x.s.numVars u
        rw [Nat.succ_mul] at hl
        unfold stageBound at hl
        unfold todoBound
        simp only [Nat.sub_zero]
        omega) e3
      rw [this] at hr; cases hr
    · unfold finish at e
      split at e
      · cases e
      · split at e
        · cases e
        · split at e <;> cases e
  all_goals cases e

/-- **C54.** `solve` terminates: for any formula, any configuration and any decisions of the heuristics, the main loop is over
after at most `answerBound n` iterations, where `n` is the number of variables (`more`: the given choices are used up and the
loop is not over). No limit on time or memory is needed. -/
theorem C54_solve_terminates {F : Form} {x : Sol} (h : Built F x) (cfg : Cfg) (p : Pre) (u : Nat) {ts : List Tick}
    (hl : answerBound x.s.numVars ≤ ts.length) (low : Nat → Bool) (y : Sol) : timedSolve cfg p (StageManager.new u) ts low x ≠ .more y := by
  have hp := Nat.pow_pos (n := gainBound x.s.numVars + 1) (show 0 < 2 by decide)
  refine timedSolve_not_more h cfg p Luby.inv_default (I := 2 ^ (gainBound x.s.numVars + 1) - 1) ?_ ?_ low y
  · have := ones_pow (gainBound x.s.numVars + 1)
    have e : (StageManager.new u).luby.index = 0 := rfl
    rw [e, ones, Nat.zero_add]
    omega
  · rw [Nat.sub_add_cancel hp]
    exact hl

/-- **C54**, whatever the state of the stage manager is (a later call finds its Luby sequence advanced): the bound depends on
the number of variables and the position in the Luby sequence only. -/
theorem C54_any_stage_manager (n k : Nat) : ∃ N, ∀ {F : Form} {x : Sol}, Built F x → x.s.numVars = n → ∀ (cfg : Cfg) (p : Pre) (m : StageManager) (ops : List Luby.Op)
    (out : List Nat), Luby.run .default ops = some (out, m.luby) → m.luby.index = k → ∀ (ts : List Tick), N ≤ ts.length → ∀ (low : Nat → Bool) (y : Sol), timedSolve cfg p m ts low x ≠ .more y := by
  refine ⟨(2 ^ (gainBound n + ones k + 1) + 1) * (stageBound n + 1), fun {F x} h hn cfg p m ops out hr hk ts hl low y => ?_⟩
  subst hn
  have hp := Nat.pow_pos (n := gainBound x.s.numVars + ones k + 1) (show 0 < 2 by decide)
  refine timedSolve_not_more h cfg p ?_ (I := 2 ^ (gainBound x.s.numVars + ones k + 1)) ?_ hl low y
  · obtain ⟨out', s', e, hi, -⟩ := Luby.run_inv ops .default Luby.inv_default
    rw [e] at hr; cases hr; exact hi
  · rw [hk]
    have h1 := ones_pow (gainBound x.s.numVars + ones k + 1)
    have h2 := ones_mono (a := 2 ^ (gainBound x.s.numVars + ones k + 1) - 1) (b := k + 2 ^ (gainBound x.s.numVars + ones k + 1)) (by omega)
    omega

/-- `timedSolve` makes some of the choices that are arbitrary in `solve`: what holds of `solve` for all choices holds of it. -/
theorem C54_stage_manager_is_a_choice (cfg : Cfg) (p : Pre) (u : Nat) (ts : List Tick) (low : Nat → Bool) (x : Sol) :
    ∃ os : List Orc, os.length = ts.length ∧ timedSolve cfg p (StageManager.new u) ts low x = solve cfg p os low x :=
  timedSolve_solve Luby.inv_default ts low x

/-! ## C55 -/

/-- The limits on time and memory are not reached. -/
def Unlimited (p : Pre) (ts : List Tick) : Prop :=
  (p.oom = false ∧ p.oom1 = false ∧ p.oom2 = false) ∧ ∀ t ∈ ts, t.st.timeout = false ∧ t.st.oom = false

/-- Whenever a new segment begins, the elimination is tidy (see `Tidy`). -/
def TidyLoop (cfg : Cfg) : List Tick → Timed → Prop
  | [], _ => True
  | t :: ts, z => ∀ z', timedStep cfg t z = .ok z' → (z'.2.2.segment ≠ z.2.2.segment → Tidy cfg t.st.cmds z'.1) ∧ TidyLoop cfg ts z'

/-- Every elimination of the run is tidy. -/
def TidyRun (cfg : Cfg) (p : Pre) (m : StageManager) (ts : List Tick) (x : Sol) : Prop :=
  ∀ y, preprocess cfg p x = .ok y → Tidy cfg p.cmds y ∧ TidyLoop cfg ts (y, 0, m.initialize 32)

theorem timedStep_fine {cfg : Cfg} {t : Tick} (h : t.st.timeout = false ∧ t.st.oom = false) {x : Sol} {n : Nat} {m : StageManager} (hm : Luby.Inv m.luby) :
    (timedStep cfg t (x, n, m)).Fine := by
  have h1 := timedStep_searchStep (cfg := cfg) (t := t) (x := x) (n := n) hm
  have h2 : (searchStep cfg (t.orc n m) x).Fine := searchStep_fine cfg (fun st hst => by
    unfold Tick.orc at hst
    simp only [] at hst
    generalize (if t.grows then n + 1 else n) = n1 at hst
    split at hst
    · split at hst
      · cases hst
      · cases hst; exact h
    · cases hst) x
  rw [← h1] at h2
  cases e : timedStep cfg t (x, n, m) with
  | err => rw [e] at h2; exact h2.elim
  | _ => trivial

theorem timedLoop_fine {cfg : Cfg} : ∀ {ts : List Tick} (_ : ∀ t ∈ ts, t.st.timeout = false ∧ t.st.oom = false) (x : Sol) (n : Nat) (m : StageManager), Luby.Inv m.luby →
    (timedLoop cfg ts (x, n, m)).Fine
  | [], _, _, _, _, _ => trivial
  | t :: ts, h, x, n, m, hm => by
    unfold timedLoop
    split
    · have h1 := timedStep_fine (cfg := cfg) (h t (by simp)) (x := x) (n := n) hm
      cases e : timedStep cfg t (x, n, m) with
      | ok z =>
        obtain ⟨y, n', m'⟩ := z
        exact timedLoop_fine (fun t ht => h t (by simp [ht])) y n' m' (timedStep_luby hm e)
      | err => rw [e] at h1; exact h1.elim
      | _ => trivial
    · trivial

theorem timedLoop_head {cfg : Cfg} {F : Form} : ∀ {ts : List Tick} {x : Sol} {n : Nat} {m : StageManager} {z : Timed}, Luby.Inv m.luby → Head cfg F x →
    timedLoop cfg ts (x, n, m) = .ok z → Head cfg F z.1
  | [], x, n, m, z, _, h, e => by cases e; exact h
  | t :: ts, x, n, m, z, hm, h, e => by
    unfold timedLoop at e
    split at e
    · rename_i hr
      obtain ⟨⟨y, n', m'⟩, e1, e2⟩ := Res.bind_ok e
      have h1 := timedStep_searchStep (cfg := cfg) (t := t) (x := x) (n := n) hm
      rw [e1] at h1
      exact timedLoop_head (timedStep_luby hm e1) (.step h hr h1.symm) e2
    · cases e; exact h

/-- If the step ends a stage with a new segment, the number of segments grows. -/
theorem orc_segment {cfg : Cfg} {t : Tick} {x y : Sol} {n n' : Nat} {m m' : StageManager} (e : timedStep cfg t (x, n, m) = .ok (y, n', m')) {st : StageOrc}
    (hst : (t.orc n m).stage = some st) (hs : st.segment = true) : st.cmds = t.st.cmds ∧ (m'.segment ≠ m.segment ∨ ∃ s db' s', decideStep t.o x.s = some s ∧ propagate t.o.q x.db s = .ok db' s') := by
  unfold Tick.orc at hst
  simp only [] at hst
  unfold timedStep at e
  split at e
  · cases e
  rename_i s hd
  split at e
  · rename_i hp
    refine ⟨?_, .inr ?_⟩
    · generalize (if t.grows then n + 1 else n) = n1 at hst
      split at hst
      · split at hst
        · cases hst
        · cases hst; rfl
      · cases hst
    · exact ⟨s, _, _, hd, hp⟩
  · cases e
  · cases e
  split at e
  · cases e
  split at e
  · cases e
  · cases e
  unfold timedConflict at e
  simp only [] at e
  generalize (if t.grows then n + 1 else n) = n1 at hst e
  split at hst
  · rename_i he
    rw [if_pos he] at e
    split at hst
    · cases hst
    rename_i flag m1 hm
    rw [hm] at e
    cases hst
    obtain ⟨z, -, e⟩ := Res.bind_ok e
    simp only [Res.ok.injEq, Prod.mk.injEq] at e
    obtain ⟨rfl, rfl, rfl⟩ := e
    refine ⟨rfl, .inl ?_⟩
    simp only [] at hs
    unfold StageManager.prepare at hm
    split at hm
    · cases hm
    rename_i v l hn
    simp only [Option.some.injEq, Prod.mk.injEq] at hm
    obtain ⟨h1, h2⟩ := hm
    by_cases hv : v = 1
    · rw [if_pos (by simpa using hv)] at h1
      subst h1
      simp only [Option.getD_some, Bool.and_eq_true, decide_eq_true_eq] at hs
      rw [← h2]
      simp only [hv, hs.2, decide_true, Bool.and_true, if_true]
      split <;> simp
    · rw [if_neg (by simpa using hv)] at h1
      subst h1
      simp at hs
  · cases hst

theorem timedLoop_tidy {cfg : Cfg} {F : Form} : ∀ {ts : List Tick} {x : Sol} {n : Nat} {m : StageManager} {z : Timed}, Luby.Inv m.luby → TidyHead cfg F x →
    TidyLoop cfg ts (x, n, m) → timedLoop cfg ts (x, n, m) = .ok z → TidyHead cfg F z.1
  | [], x, n, m, z, _, h, _, e => by cases e; exact h
  | t :: ts, x, n, m, z, hm, h, ht, e => by
    unfold timedLoop at e
    split at e
    · rename_i hr
      obtain ⟨⟨y, n', m'⟩, e1, e2⟩ := Res.bind_ok e
      have h1 := timedStep_searchStep (cfg := cfg) (t := t) (x := x) (n := n) hm
      rw [e1] at h1
      obtain ⟨t1, t2⟩ := ht _ e1
      refine timedLoop_tidy (timedStep_luby hm e1) ?_ t2 e2
      by_cases hseg : m'.segment = m.segment
      · by_cases hc : ∃ s db' s', decideStep t.o x.s = some s ∧ propagate t.o.q x.db s = .ok db' s'
        · obtain ⟨s, db', s', hd, hp⟩ := hc
          have h2 : searchStep cfg { t.o with stage := none } x = .ok { x with db := db', s := s' } := by
            unfold searchStep
            have : decideStep { t.o with stage := none } x.s = decideStep t.o x.s := rfl
            rw [this, hd]
            simp only [hp]
          have h3 : searchStep cfg (t.orc n m) x = .ok { x with db := db', s := s' } := by
            unfold searchStep
            have : decideStep (t.orc n m) x.s = decideStep t.o x.s := rfl
            have hq : (t.orc n m).q = t.o.q := rfl
            rw [this, hd, hq]
            simp only [hp]
          rw [h3] at h1
          simp only [Res.bind, Res.ok.injEq] at h1
          rw [h1]
          exact .step h hr h2 fun st hst => by cases hst
        · refine .step h hr h1.symm fun st hst _ hs => ?_
          obtain ⟨-, a | a⟩ := orc_segment e1 hst hs
          · exact absurd hseg a
          · exact absurd a hc
      · refine .step h hr h1.symm fun st hst _ hs => ?_
        rw [(orc_segment e1 hst hs).1]
        exact t1 hseg
    · cases e; exact h

/-- **C55**, errors: when the limits on time and memory are not reached, the only error of `solve` is that the model found does
not pass the final check, and this happens only if a clause was overlooked that has two literals that are false for good. -/
theorem C55_cause_of_errors {F : Form} {x : Sol} (h : Built F x) (cfg : Cfg) {p : Pre} {u : Nat} {ts : List Tick} (hu : Unlimited p ts) {low : Nat → Bool}
    (e : timedSolve cfg p (StageManager.new u) ts low x = .err) :
    ∃ y, Head cfg F y ∧ y.s.running = false ∧ (TidyRun cfg p (StageManager.new u) ts x → TidyHead cfg F y) ∧
      ∃ c, Held y.db c ∧ (∀ l ∈ c, Fails y.s l) ∧ ∃ a ∈ c, ∃ b ∈ c, a ≠ b ∧ Fact y.s a.neg ∧ Fact y.s b.neg := by
  have hf : ((preprocess cfg p x).bind (timedSearch cfg (StageManager.new u) ts)).Fine :=
    (preprocess_fine cfg hu.1.1 hu.1.2.1 hu.1.2.2 x).bind fun y => (timedLoop_fine hu.2 _ _ _ Luby.inv_default).bind fun _ => trivial
  unfold timedSolve at e
  split at e
  · rename_i z hz
    obtain ⟨v, e1, e2⟩ := Res.bind_ok hz
    obtain ⟨w, e3, e4⟩ := Res.bind_ok e2
    cases e4
    split at e
    · cases e
    · rename_i hr
      have hr : w.1.s.running = false := by simpa using hr
      have hh := timedLoop_head (m := (StageManager.new u).initialize 32) Luby.inv_default (.start h e1) e3
      refine ⟨w.1, hh, hr, fun ht => timedLoop_tidy (m := (StageManager.new u).initialize 32) Luby.inv_default (.start h e1 (ht _ e1).1) (ht _ e1).2 e3, ?_⟩
      obtain ⟨F', -, hs⟩ := hh.sok
      obtain ⟨i, hne, hall⟩ := finish_err hs hr e
      obtain ⟨Z, hw, hn⟩ := hh.lv
      have hq : w.1.s.trail.length ≤ w.1.s.qhead := by
        unfold Stk.running Stk.remains at hr; simp at hr; exact hr.2
      have hz : ∀ l, W2 (w.1.db.clause i).lits l → Fact w.1.s l.neg := by
        intro l hl
        have hm : l ∈ (w.1.db.clause i).lits := hl.elim List.mem_of_getElem? List.mem_of_getElem?
        by_contra hz
        obtain ⟨t, t1, t2, -⟩ := hw.wat i l hl ⟨hall l hm, by rw [List.drop_eq_nil_of_le hq]; simp⟩ (fun hz' => hz (hn.root l hz'))
        exact tr_not_neg t2 (hall t t1)
      refine ⟨_, ⟨hne, i, rfl⟩, fun l hl => ?_, ?_⟩
      · have := hall l hl
        unfold Stk.tr at this; unfold Fails
        simpa [Lit.neg] using this
      · have h2 := hs.pinv.wf.len2 i hne
        have hnd := Cdb.nodup_of_map_var (hs.pinv.wf.nd i)
        match hl : (w.1.db.clause i).lits, h2 with
        | a :: b :: tl, _ =>
          rw [hl] at hz hnd
          exact ⟨a, by simp, b, by simp, by rintro rfl; simp at hnd, hz a (.inl rfl), hz b (.inr rfl)⟩
  · cases e
  · rename_i hz
    rw [hz] at hf; exact hf.elim
  · cases e
  · cases e

/-- **C55 (partial).** `solve` is a decision procedure: without limits on time and memory, and if every elimination is tidy, it
answers SAT with a model of the given clauses, or UNSAT and there is none; it neither panics nor reports an error nor runs
forever. Missing: the runs with an elimination that is not tidy, see `C55_violated`. -/
theorem C55_decides_partial {F : Form} {x : Sol} (h : Built F x) (hn : x.s.numVars < 65535) (hc : x.s.numVars ≤ x.cnf) {cfg : Cfg} (hen : cfg.enable = true)
    {p : Pre} {u : Nat} {ts : List Tick} (hu : Unlimited p ts) (ht : TidyRun cfg p (StageManager.new u) ts x) (hl : answerBound x.s.numVars ≤ ts.length) (low : Nat → Bool) :
    (∃ vals y, timedSolve cfg p (StageManager.new u) ts low x = .sat vals y ∧ Form.sat (valsAsg vals) F) ∨
    (∃ db, timedSolve cfg p (StageManager.new u) ts low x = .unsat db ∧ ¬ F.Satisfiable) := by
  have hm := C54_solve_terminates h cfg p u hl low
  have herr : timedSolve cfg p (StageManager.new u) ts low x ≠ .err := by
    intro e
    obtain ⟨y, -, hr, h2, c, c1, c2, -⟩ := C55_cause_of_errors h cfg hu e
    have h2 := h2 ht
    obtain ⟨F', -, hs⟩ := h2.head.sok
    have hq : y.s.remains = false := by
      unfold Stk.running at hr; simp at hr; exact hr.2
    rcases Wt.quiet hs.pinv.wf h2.wt hq c1 with ⟨l, l1, l2⟩ | ⟨a, a1, b, b1, -, a2, -⟩
    · have := c2 l l1
      unfold Holds at l2; unfold Fails at this
      rw [l2] at this; cases hp : l.pos <;> simp [hp] at this
    · have := c2 a a1
      unfold Open at a2; unfold Fails at this
      rw [a2] at this; cases this
  obtain ⟨os, -, e⟩ := C54_stage_manager_is_a_choice cfg p u ts low x
  obtain ⟨hp, hf⟩ := C52_solve_never_panics h hn hc cfg p os low
  rw [e] at hm herr ⊢
  cases hs : solve cfg p os low x with
  | sat vals y => exact .inl ⟨vals, y, rfl, C01_sat_answers_are_models h cfg p os low (by rw [hs]; rfl)⟩
  | unsat db => exact .inr ⟨db, rfl, C02_unsat_answers_are_correct h hen p os low (by rw [hs]; rfl)⟩
  | err => exact absurd hs herr
  | panic => exact absurd hs hp
  | fuel => exact absurd hs hf
  | more y => exact absurd hs (hm y)

theorem tidyLoop_of_keeps {cfg : Cfg} : ∀ {ts : List Tick} (_ : ∀ t ∈ ts, ∀ c ∈ t.st.cmds, c.Keeps) (z : Timed), TidyLoop cfg ts z
  | [], _, _ => trivial
  | t :: ts, h, _ => fun z' _ => ⟨fun _ => .inr (.inl (h t (by simp))), tidyLoop_of_keeps (fun t ht => h t (by simp [ht])) z'⟩

/-- **C55 (partial)**, for all runs in which the eliminator only removes subsumed clauses: nothing is assumed about the states. -/
theorem C55_subsumption_only_partial {F : Form} {x : Sol} (h : Built F x) (hn : x.s.numVars < 65535) (hc : x.s.numVars ≤ x.cnf) {cfg : Cfg} (hen : cfg.enable = true)
    {p : Pre} {u : Nat} {ts : List Tick} (hu : Unlimited p ts) (hk : ∀ c ∈ p.cmds, c.Keeps) (hks : ∀ t ∈ ts, ∀ c ∈ t.st.cmds, c.Keeps)
    (hl : answerBound x.s.numVars ≤ ts.length) (low : Nat → Bool) :
    (∃ vals y, timedSolve cfg p (StageManager.new u) ts low x = .sat vals y ∧ Form.sat (valsAsg vals) F) ∨
    (∃ db, timedSolve cfg p (StageManager.new u) ts low x = .unsat db ∧ ¬ F.Satisfiable) :=
  C55_decides_partial h hn hc hen hu (fun _ _ => ⟨.inr (.inl hk), tidyLoop_of_keeps hks _⟩) hl low

/-- An iteration with plain choices; when a stage ends: vivification of clauses 1 to 3, and a check whether 1 subsumes 2. -/
def plainTick : Tick :=
  { o := plainOrc, grows := true,
    st := { timeout := false, cycle := false, segment := false, victims := [], targets := [1, 2, 3], cmds := [.subsume 1 2], oom := false } }

/-- As many as it takes (also for `C54_solve_terminates`), for a formula with 4 variables. -/
example : Built (exSat.map clsOf) (exSolver 4 exSat) ∧ (exSolver 4 exSat).s.numVars < 65535 ∧ (exSolver 4 exSat).s.numVars ≤ (exSolver 4 exSat).cnf ∧
    Unlimited plainPre (List.replicate (answerBound 4) plainTick) ∧ (∀ c ∈ plainPre.cmds, c.Keeps) ∧
    (∀ t ∈ List.replicate (answerBound 4) plainTick, ∀ c ∈ t.st.cmds, c.Keeps) ∧ answerBound (exSolver 4 exSat).s.numVars ≤ (List.replicate (answerBound 4) plainTick).length := by
  refine ⟨exBuilt (by decide +kernel), by decide +kernel, by decide +kernel, ⟨⟨rfl, rfl, rfl⟩, fun t ht => ?_⟩, by simp [plainPre], fun t ht => ?_, ?_⟩
  · rw [(List.mem_replicate.1 ht).2]; exact ⟨rfl, rfl⟩
  · rw [(List.mem_replicate.1 ht).2]
    intro c hc
    simp only [plainTick, List.mem_singleton] at hc
    subst hc; exact .inr (.inl ⟨1, 2, rfl⟩)
  · rw [List.length_replicate]
    have : (exSolver 4 exSat).s.numVars = 4 := by decide +kernel
    rw [this]

set_option exponentiation.threshold 300 in
/-- A run with an elimination that is tidy: variable 2 is eliminated in preprocessing. -/
example : TidyRun {} elimPre (StageManager.new 32) (List.replicate (answerBound 4) plainTick) (exSolver 4 exSat) ∧
    ∃ y, preprocess {} elimPre (exSolver 4 exSat) = .ok y ∧ y.s.elim 2 = true := by
  have h : (match preprocess {} elimPre (exSolver 4 exSat) with
      | .ok y => decide (∀ v ∈ List.range 5, y.s.assign v = none) && decide (y.s.elim 2 = true) | _ => false) = true := by decide +kernel
  have hb : Built (exSat.map clsOf) (exSolver 4 exSat) := exBuilt (by decide +kernel)
  have h4 : (exSolver 4 exSat).s.numVars = 4 := by decide +kernel
  split at h
  · rename_i y e
    simp only [Bool.and_eq_true, decide_eq_true_eq] at h
    refine ⟨fun y' e' => ⟨?_, tidyLoop_of_keeps (fun t ht => ?_) _⟩, y, e, h.2⟩
    · rw [e] at e'; cases e'
      obtain ⟨F', -, hs⟩ := preprocess_any hb.bok.1 e
      refine .inr (.inr fun c hc => ?_)
      obtain ⟨-, i, rfl⟩ := hc
      rintro ⟨l, hl, hf⟩
      obtain ⟨-, h2, -⟩ := hs.dom.cl i l hl
      rw [hs.nvar, h4] at h2
      unfold Fails at hf
      rw [h.1 l.var (List.mem_range.2 (by omega))] at hf
      cases hf
    · rw [(List.mem_replicate.1 ht).2]
      intro c hc
      simp only [plainTick, List.mem_singleton] at hc
      subst hc; exact .inr (.inl ⟨1, 2, rfl⟩)
  · cases h

/-- The lists of variables 2 and 7 are given up with an occurrence limit of 1. -/
def exLost : List (List Int) := [[1, -2], [-1, -2], [9, -7], [-9, -7], [2, -4, -5], [2, -4, -6], [7, -4, -8], [7, -5, -8], [2, 7, -3, 4], [3, 4, 5, 6, 8]]

/-- Variables 1 and 9 are eliminated; the resolvents are the units ¬2 and ¬7. 2 and 7 are removed from the clauses in their
occurrence lists; ¬2 and ¬7 are propagated. Then variable 3 is eliminated. -/
def lostPre : Pre := { plainPre with cmds := [.elimVar 1, .elimVar 9, .lifted ⟨2, false⟩ 5, .lifted ⟨7, false⟩ 7, .propagate, .elimVar 3] }

/-- Decide negatively. -/
def lostTick : Tick := { plainTick with o := leftOrc }

/-- **C55 is violated.** With the eliminator, `solve` can end with the error `SolverBug` for a satisfiable formula: the resolvent
{2, 7, 4, 5, 6, 8} of variable 3 is watched at 2 and 7, which are false for good and have been propagated; its other literals are
decided false without a conflict, and the check of the model fails (src/solver/search.rs:181-185). -/
theorem C55_violated : ∃ (F : Form) (x : Sol) (cfg : Cfg) (p : Pre) (ts : List Tick) (low : Nat → Bool), Built F x ∧ x.s.numVars < 65535 ∧ x.s.numVars ≤ x.cnf ∧
    cfg.enable = true ∧ Unlimited p ts ∧ F.Satisfiable ∧ timedSolve cfg p (StageManager.new 32) ts low x = .err := by
  refine ⟨_, exSolver 9 exLost, { evo := 1 }, lostPre, List.replicate 9 lostTick, noLow, exBuilt (by decide +kernel), by decide +kernel, by decide +kernel, rfl,
    ⟨⟨rfl, rfl, rfl⟩, fun t ht => by rw [(List.mem_replicate.1 ht).2]; exact ⟨rfl, rfl⟩⟩, ⟨valsAsg [-1, -2, -3, -4, -5, -6, -7, 8, -9], by decide +kernel⟩, ?_⟩
  have h : (match timedSolve { evo := 1 } lostPre (StageManager.new 32) (List.replicate 9 lostTick) noLow (exSolver 9 exLost) with | .err => true | _ => false) = true := by decide +kernel
  generalize timedSolve { evo := 1 } lostPre (StageManager.new 32) (List.replicate 9 lostTick) noLow (exSolver 9 exLost) = r at h ⊢
  cases r <;> first | rfl | cases h

end Splr
