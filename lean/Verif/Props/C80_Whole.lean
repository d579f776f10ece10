import Verif.Lemmas.QueueAmple
import Verif.Lemmas.QueueBuild
import Verif.Props.C78_Queue
import Verif.Props.C77_Whole
import Verif.Props.C24_C51_Proof
/-!
# C80: the whole solver with its own choices, the array queue and range checks

`QStk.solveA` (Verif/Model/QueueWhole.lean) is `solve` with the array queue of decision variables, with a check before the accesses to the arrays of variables and of
clauses, with the loops and the queues of the eliminator, and with the clauses to be deleted, the clauses to be vivified and the ends of the stages computed as in the
code. Open are the activities (floating-point numbers), averages, clocks and memory limits.
-/
namespace Splr
open Stk QStk Stage LubySpec

variable {K : Type} [LinearOrder K]

/-- **C80.** It does what the solver with a set of queued variables does (C77), for some choices among the queued variables: it behaves as a solver that was given the
same clauses, has the same database and trail, and gives the same answer. -/
theorem C80_refines {F : Form} {x : SolQ} (h : BuiltQ F x) (hc : x.cnf = x.x.s.numVars) : ∃ y : Sol, Built F y ∧ y.db = x.db ∧ y.s.trail = x.x.s.trail ∧
    y.s.numVars = x.x.s.numVars ∧ y.cnf = x.cnf ∧ ∀ (c : CfgW) (p : PreW) (u : Nat) (n : Counts) (ts : List (TickW K)) (low : Nat → Bool), ∃ ts', SameTicks ts ts' ∧
      (solveW c p.blind (StageManager.new u) n ts' low y).verdict = (solveA c p (StageManager.new u) n ts low x).verdict := by
  obtain ⟨y, hy, hr⟩ := h.sim
  obtain ⟨hp, e⟩ := hr.rel.of
  refine ⟨y, hy, hr.db.symm, by rw [e], by rw [e], hr.cnf.symm, fun c p u n ts low => ?_⟩
  obtain ⟨ts', h1, h2⟩ := solve_simW (c := c) hy (by rw [hr.cnf, e] at hc; exact hc) hr p (m := StageManager.new u) Luby.inv_default n ts low
  refine ⟨ts', h1, ?_⟩
  revert h2
  generalize solveW c p.blind (StageManager.new u) n ts' low y = a
  generalize solveA c p (StageManager.new u) n ts low x = b
  intro h2
  cases h2 <;> rfl

/-- The runs are runs of `solve`. -/
theorem solveA_run {F : Form} {x : SolQ} (h : BuiltQ F x) (hc : x.cnf = x.x.s.numVars) (c : CfgW) (p : PreW) (u : Nat) (n : Counts) (ts : List (TickW K)) (low : Nat → Bool) :
    ∃ (y : Sol) (q : Pre) (os : List Orc), Built F y ∧ y.s.numVars = x.x.s.numVars ∧ y.cnf = y.s.numVars ∧ os.length = ts.length ∧
      ARel (solve c.cfg q os low y) (solveA c p (StageManager.new u) n ts low x) := by
  obtain ⟨y, hy, hr⟩ := h.sim
  obtain ⟨hp, e⟩ := hr.rel.of
  have hc' : y.cnf = y.s.numVars := by rw [hr.cnf, e] at hc; exact hc
  obtain ⟨ts', h1, h2⟩ := solve_simW (c := c) hy hc' hr p (m := StageManager.new u) Luby.inv_default n ts low
  obtain ⟨q, os, h3, h4⟩ := C77_refines hy hc' c p.blind u n ts' low
  exact ⟨y, q, os, hy, by rw [e], hc', h3.trans h1.length_eq.symm, by rw [← h4]; exact h2⟩

/-- **C80.** No index is out of range, no operation on the array queue or on the queues of the eliminator fails, and all loops end. -/
theorem C80_never_panics {F : Form} {x : SolQ} (h : BuiltQ F x) (hn : x.x.s.numVars < 65535) (hc : x.cnf = x.x.s.numVars) (c : CfgW) (p : PreW) (u : Nat) (n : Counts)
    (ts : List (TickW K)) (low : Nat → Bool) :
    solveA c p (StageManager.new u) n ts low x ≠ .panic ∧ solveA c p (StageManager.new u) n ts low x ≠ .fuel := by
  obtain ⟨y, q, os, hy, hnv, hcy, -, h2⟩ := solveA_run h hc c p u n ts low
  obtain ⟨k1, k2⟩ := C52_solve_never_panics hy (by omega) (by omega) c.cfg q os low
  revert h2 k1 k2
  generalize solve c.cfg q os low y = a
  generalize solveA c p (StageManager.new u) n ts low x = b
  intro h2 k1 k2
  cases h2 <;> simp_all

/-- **C80.** The answers are right: a SAT answer is a model of what was given, with one literal for each variable; an UNSAT answer means that there is none, and the
certificate is then a DRAT proof of it. -/
theorem C80_answers {F : Form} {x : SolQ} (h : BuiltQ F x) (hc : x.cnf = x.x.s.numVars) (c : CfgW) (p : PreW) (u : Nat) (n : Counts) (ts : List (TickW K))
    (low : Nat → Bool) :
    (∀ vals z, solveA c p (StageManager.new u) n ts low x = .sat vals z → Canonical vals x.x.s.numVars ∧ Form.sat (valsAsg vals) F) ∧
    (c.cfg.enable = true → ∀ db, solveA c p (StageManager.new u) n ts low x = .unsat db → ¬ F.Satisfiable ∧ Verified false F db.cert) := by
  obtain ⟨y, q, os, hy, hnv, -, -, h2⟩ := solveA_run h hc c p u n ts low
  refine ⟨fun vals z e => ?_, fun hen db e => ?_⟩
  · rw [e] at h2
    have hv : (solve c.cfg q os low y).verdict = .sat vals := by
      revert h2
      generalize solve c.cfg q os low y = a
      intro h2
      cases h2; rfl
    rw [← hnv]
    exact ⟨C49_model_is_canonical hy c.cfg q os low hv, C01_sat_answers_are_models hy c.cfg q os low hv⟩
  · rw [e] at h2
    have hv : solve c.cfg q os low y = .unsat db := by
      revert h2
      generalize solve c.cfg q os low y = a
      intro h2
      cases h2; rfl
    have hv' : (solve c.cfg q os low y).verdict = .unsat := by rw [hv]; rfl
    refine ⟨C02_unsat_answers_are_correct hy hen q os low hv', ?_⟩
    have := C24_certificate_is_verified hy hen q os low hv'
    rw [hv] at this
    exact this

/-- **C80.** It terminates. -/
theorem C80_terminates {F : Form} {x : SolQ} (h : BuiltQ F x) (hc : x.cnf = x.x.s.numVars) (c : CfgW) (p : PreW) (u : Nat) (n : Counts) {ts : List (TickW K)}
    (hl : answerBound x.x.s.numVars ≤ ts.length) (low : Nat → Bool) (z : SolQ) : solveA c p (StageManager.new u) n ts low x ≠ .more z := by
  intro e
  obtain ⟨y, hy, hr⟩ := h.sim
  obtain ⟨hp, e'⟩ := hr.rel.of
  obtain ⟨ts', h1, h2⟩ := solve_simW (c := c) hy (by rw [hr.cnf, e'] at hc; exact hc) hr p (m := StageManager.new u) Luby.inv_default n ts low
  rw [e] at h2
  have hm : ∃ w, solveW c p.blind (StageManager.new u) n ts' low y = .more w := by
    revert h2
    generalize solveW c p.blind (StageManager.new u) n ts' low y = a
    intro h2
    cases h2; exact ⟨_, rfl⟩
  obtain ⟨w, hw⟩ := hm
  refine C77_terminates hy (by rw [hr.cnf, e'] at hc; exact hc) c p.blind u n (ts := ts') ?_ low w hw
  rw [← h1.length_eq]
  rw [e'] at hl
  exact hl

/-- **C80.** What a user sees: with enough time, `solve` returns SAT with a model of the given clauses, or UNSAT and there is none, or an error. -/
theorem C80_outcomes {F : Form} {x : SolQ} (h : BuiltQ F x) (hn : x.x.s.numVars < 65535) (hc : x.cnf = x.x.s.numVars) {c : CfgW} (hen : c.cfg.enable = true) (p : PreW)
    (u : Nat) (n : Counts) {ts : List (TickW K)} (hl : answerBound x.x.s.numVars ≤ ts.length) (low : Nat → Bool) :
    (∃ vals z, solveA c p (StageManager.new u) n ts low x = .sat vals z ∧ Form.sat (valsAsg vals) F) ∨
    (∃ db, solveA c p (StageManager.new u) n ts low x = .unsat db ∧ ¬ F.Satisfiable) ∨ solveA c p (StageManager.new u) n ts low x = .err := by
  obtain ⟨k1, k2⟩ := C80_never_panics h hn hc c p u n ts low
  obtain ⟨k3, k4⟩ := C80_answers h hc c p u n ts low
  have k5 := C80_terminates h hc c p u n hl low
  cases e : solveA c p (StageManager.new u) n ts low x with
  | sat vals z => exact .inl ⟨vals, z, rfl, (k3 vals z e).2⟩
  | unsat db => exact .inr (.inl ⟨db, rfl, (k4 hen db e).1⟩)
  | err => exact .inr (.inr rfl)
  | panic => exact absurd e k1
  | fuel => exact absurd e k2
  | more z => exact absurd e (k5 z)

omit [LinearOrder K] in
theorem SameTicks.mem {ts ts' : List (TickW K)} (h : SameTicks ts ts') {t' : TickW K} (ht : t' ∈ ts') : ∃ t ∈ ts, ∃ pick, t' = t.with pick := by
  unfold SameTicks at h
  induction h with
  | nil => cases ht
  | @cons a b as bs h1 h2 ih =>
    rcases List.mem_cons.1 ht with rfl | ht
    · exact ⟨a, by simp, h1⟩
    · obtain ⟨t, m, e⟩ := ih ht
      exact ⟨t, by simp [m], e⟩

/-- **C80.** It is a decision procedure: without limits on time and memory, and if the eliminator reaches none of its limits, it answers SAT with a model of the given
clauses, or UNSAT and there is none. -/
theorem C80_decides {F : Form} {x : SolQ} (h : BuiltQ F x) (hn : x.x.s.numVars < 65535) (hc : x.cnf = x.x.s.numVars) {c : CfgW} (hen : c.cfg.enable = true) {p : PreW}
    {u : Nat} {n : Counts} {ts : List (TickW K)} (hp : p.oom = false ∧ p.oom1 = false ∧ p.oom2 = false) (hts : ∀ t ∈ ts, t.timeout = false ∧ t.oom = false)
    (hpr : p.ctl.Real) (htr : ∀ t ∈ ts, t.ctl.Real) (ha : ampleRunA c p (StageManager.new u) n ts x = true) (hl : answerBound x.x.s.numVars ≤ ts.length)
    (low : Nat → Bool) :
    (∃ vals z, solveA c p (StageManager.new u) n ts low x = .sat vals z ∧ Form.sat (valsAsg vals) F) ∨
    (∃ db, solveA c p (StageManager.new u) n ts low x = .unsat db ∧ ¬ F.Satisfiable) := by
  have hcp := h.sim
  obtain ⟨y, hy, hr⟩ := hcp
  obtain ⟨_, e'⟩ := hr.rel.of
  obtain ⟨ts', h1, h2, h3⟩ := solve_simB (c := c) hy (by rw [hr.cnf, e'] at hc; exact hc) hr p (m := StageManager.new u) Luby.inv_default n ts low
  rw [← h3] at ha
  have key := C77_decides hy (by rw [e'] at hn; exact hn) (by rw [hr.cnf, e'] at hc; exact hc) hen (p := p.blind) (u := u) (n := n) (ts := ts') hp (fun t ht => by
    obtain ⟨t0, m0, pick, rfl⟩ := h1.mem ht
    exact hts t0 m0) hpr.blind (fun t ht => by
    obtain ⟨t0, m0, pick, rfl⟩ := h1.mem ht
    exact (htr t0 m0).blind) ha (by rw [← h1.length_eq]; rw [e'] at hl; exact hl) low
  revert h2 key
  generalize solveW c p.blind (StageManager.new u) n ts' low y = a
  generalize solveA c p (StageManager.new u) n ts low x = b
  intro h2 key
  rcases key with ⟨vals, z, rfl, k⟩ | ⟨db, rfl, k⟩
  · cases h2; exact .inl ⟨_, _, rfl, k⟩
  · cases h2; exact .inr ⟨_, rfl, k⟩

/-! The hypotheses are met: twelve variables, 51 clauses, a run that eliminates a variable, meets a conflict and finds a model. -/
example : ∃ ts : List (TickW Int), BuiltQ (exWhole.map clsOf) (exSolverQ 12 exWhole) ∧ (exSolverQ 12 exWhole).x.s.numVars < 65535 ∧
    (exSolverQ 12 exWhole).cnf = (exSolverQ 12 exWhole).x.s.numVars ∧ exCfgW.cfg.enable = true ∧ answerBound (exSolverQ 12 exWhole).x.s.numVars ≤ ts.length :=
  ⟨List.replicate (answerBound (exSolverQ 12 exWhole).x.s.numVars) exTickW, exBuiltQ (by decide +kernel), by decide +kernel, by decide +kernel, rfl, by simp⟩

example : (solveA exCfgW exPreW (StageManager.new 32) {} (List.replicate 30 exTickW) noLow (exSolverQ 12 exWhole)).verdict =
    .sat [-1, 2, 3, 4, 5, -6, -7, -8, 9, -10, 11, 12] := by decide +kernel

example : BuiltQ (exUnsat.map clsOf) (exSolverQ 3 exUnsat) ∧
    (solveA exCfgW exPreW (StageManager.new 32) {} (List.replicate 30 exTickW) noLow (exSolverQ 3 exUnsat)).verdict = .unsat :=
  ⟨exBuiltQ (by decide +kernel), by decide +kernel⟩

example : (match preprocessA exCfgW exPreW {} (exSolverQ 12 exWhole) with
    | .ok y => decide ((List.range 13).filter y.x.s.elim = [6]) &&
      (match loopA exCfgW (List.replicate 30 exTickW) (y, 0, (StageManager.new 32).initialize 32, { vivs := 1 }) with
      | .ok z => decide (z.2.1 = 1) && !z.1.x.s.running
      | _ => false)
    | _ => false) = true := by decide +kernel

theorem ampleTicksA_over {c : CfgW} {ts : List (TickW K)} {z : WholeA} (h : z.1.x.s.running = false) : ampleTicksA c ts z = true := by
  cases ts with
  | nil => rfl
  | cons t ts => unfold ampleTicksA; simp [h]

theorem ampleTicksA_append {c : CfgW} : ∀ {ts us : List (TickW K)} {z : WholeA}, ampleTicksA c ts z = true →
    (∀ z', loopA c ts z = .ok z' → ampleTicksA c us z' = true) → ampleTicksA c (ts ++ us) z = true
  | [], us, z, _, h => h z rfl
  | t :: ts, us, z, h1, h2 => by
    unfold ampleTicksA at h1
    rw [List.cons_append]
    unfold ampleTicksA
    unfold loopA at h2
    by_cases hr : z.1.x.s.running = true
    · rw [if_pos hr] at h1 h2 ⊢
      rw [Bool.and_eq_true] at h1 ⊢
      refine ⟨h1.1, ?_⟩
      have h3 := h1.2
      cases e : stepA c t z with
      | ok w =>
        rw [e] at h3 h2
        exact ampleTicksA_append h3 h2
      | _ => rfl
    · rw [if_neg hr]

/-- One can check that a run is ample by following it until the loop ends. -/
theorem ampleRunA_append {c : CfgW} {p : PreW} {m : StageManager} {n : Counts} {ts us : List (TickW K)} {x : SolQ} (h : ampleRunA c p m n ts x = true)
    (h1 : (ResQ.every (preprocessA c p n x) fun y => ResQ.every (loopA c ts (y, 0, m.initialize 32, { n with vivs := n.vivs + 1 })) fun z => !z.1.x.s.running) = true) :
    ampleRunA c p m n (ts ++ us) x = true := by
  unfold ampleRunA at h ⊢
  rw [Bool.and_eq_true] at h ⊢
  refine ⟨h.1, ?_⟩
  have h2 := h.2
  cases e : preprocessA c p n x with
  | ok y =>
    rw [e] at h1 h2
    refine ampleTicksA_append h2 fun z ez => ampleTicksA_over ?_
    have h3 : (ResQ.every (loopA c ts (y, 0, m.initialize 32, { n with vivs := n.vivs + 1 })) fun z => !z.1.x.s.running) = true := h1
    rw [ez] at h3
    simpa [ResQ.every] using h3
  | _ => rfl

/-! The hypotheses of `C80_decides` are met by the same clauses. -/
example : ∃ ts : List (TickW Int), BuiltQ (exWhole.map clsOf) (exSolverQ 12 exWhole) ∧ (exSolverQ 12 exWhole).x.s.numVars < 65535 ∧
    (exSolverQ 12 exWhole).cnf = (exSolverQ 12 exWhole).x.s.numVars ∧ exCfgW.cfg.enable = true ∧ (exPreW.oom = false ∧ exPreW.oom1 = false ∧ exPreW.oom2 = false) ∧
    (∀ t ∈ ts, t.timeout = false ∧ t.oom = false) ∧ exPreW.ctl.Real ∧ (∀ t ∈ ts, t.ctl.Real) ∧
    ampleRunA exCfgW exPreW (StageManager.new 32) {} ts (exSolverQ 12 exWhole) = true ∧ answerBound (exSolverQ 12 exWhole).x.s.numVars ≤ ts.length := by
  refine ⟨List.replicate 30 exTickW ++ List.replicate (answerBound (exSolverQ 12 exWhole).x.s.numVars) exTickW, exBuiltQ (by decide +kernel), by decide +kernel,
    by decide +kernel, rfl, ⟨rfl, rfl, rfl⟩, fun t ht => ?_, stdCtl_real _, fun t ht => ?_, ampleRunA_append (by decide +kernel) (by decide +kernel), ?_⟩
  · have : t = exTickW := by
      rcases List.mem_append.1 ht with h | h <;> exact (List.mem_replicate.1 h).2
    rw [this]; exact ⟨rfl, rfl⟩
  · have : t = exTickW := by
      rcases List.mem_append.1 ht with h | h <;> exact (List.mem_replicate.1 h).2
    rw [this]; exact stdCtl_real _
  · rw [List.length_append, List.length_replicate, List.length_replicate]; exact Nat.le_add_left _ _

end Splr
