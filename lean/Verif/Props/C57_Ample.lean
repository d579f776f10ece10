import Verif.Props.C56_Loops
import Verif.Model.Ample
/-!
# C57, C58: runs in which the eliminator reaches none of its limits; where the assigned variables are

`ampleRun` (Verif/Model/Ample.lean) asks of a run: did the eliminator ever reach one of its limits? `Ctl.Real` (Verif/Lemmas/Careful.lean): the parameters of
the eliminator are those of the code.
-/
namespace Splr
open Stk Stage LubySpec

theorem fill_mem {u : Tick} : ∀ {ts : List TickQ} {cs : List (List ECmd)}, u ∈ fill ts cs → ∃ t ∈ ts, ∃ c, u = t.tick c
  | [], _, h => by simp [fill] at h
  | t :: ts, [], h => by simp [fill] at h
  | t :: ts, c :: cs, h => by
    rw [fill, List.zipWith_cons_cons] at h
    rcases List.mem_cons.1 h with rfl | h
    · exact ⟨t, by simp, c, rfl⟩
    · obtain ⟨t', h1, h2⟩ := fill_mem h
      exact ⟨t', by simp [h1], h2⟩

/-- **C57.** `solve`, with the loops of the eliminator, is a decision procedure: without limits on time and memory, and if the eliminator reaches none of its limits,
it answers SAT with a model of the given clauses, or UNSAT and there is none. -/
theorem C57_decides {F : Form} {x : Sol} (h : Built F x) (hn : x.s.numVars < 65535) (hc : x.cnf = x.s.numVars) {cfg : Cfg} (hen : cfg.enable = true)
    {p : PreQ} {u : Nat} {ts : List TickQ} (hp : p.oom = false ∧ p.oom1 = false ∧ p.oom2 = false) (hts : ∀ t ∈ ts, t.t.st.timeout = false ∧ t.t.st.oom = false)
    (hpr : p.ctl.Real) (htr : ∀ t ∈ ts, t.ctl.Real) (ha : ampleRun cfg p (StageManager.new u) ts x = true) (hl : answerBound x.s.numVars ≤ ts.length) (low : Nat → Bool) :
    (∃ vals y, solveQ cfg p (StageManager.new u) ts low x = .sat vals y ∧ Form.sat (valsAsg vals) F) ∨
    (∃ db, solveQ cfg p (StageManager.new u) ts low x = .unsat db ∧ ¬ F.Satisfiable) := by
  obtain ⟨c, cs, h1, h2, h3⟩ := solveQ_eq (cfg := cfg) (p := p) (m := StageManager.new u) (ts := ts) (low := low) h hc Luby.inv_default
  rw [h2]
  refine C55_decides_partial h hn (by omega) hen ⟨hp, fun t ht => ?_⟩ (h3 hen hpr htr ha) (by simp [fill, h1, hl]) low
  obtain ⟨t', m, c', rfl⟩ := fill_mem ht
  exact hts t' m

/-- **C57.** If the eliminator reaches none of its limits in preprocessing, none of the clauses it leaves has a false literal: the literals it has found have been
removed everywhere. -/
theorem C57_no_false_literal {F : Form} {x y : Sol} (h : Built F x) (hc : x.cnf = x.s.numVars) {cfg : Cfg} (hen : cfg.enable = true) {p : PreQ}
    (hpr : p.ctl.Real) (ha : amplePre cfg p x = true) (e : preprocessQ cfg p x = .ok y) {c : Cls} (hcl : Held y.db c) : ∀ l ∈ c, ¬ Fails y.s l := by
  obtain ⟨cs, e1, hsw⟩ := preprocessQ_eq (cfg := cfg) (o := p) h.bok.1 hc
  have hL := hsw y e hen hpr ha
  rw [e1] at e
  obtain ⟨F', -, hz⟩ := preprocess_any h.bok.1 e
  intro l hl hf
  exact hL.noFalse hz.pinv.inv (preprocess_ac h e) hcl l hl hf

/-- **C57.** In a run in which the eliminator reaches none of its limits propagation is complete: when it ends without a conflict, no clause the solver
holds is falsified, and none has all its literals false but one that is unassigned. -/
theorem C57_propagation_complete {F : Form} {x y : Sol} (h : Built F x) (hc : x.cnf = x.s.numVars) {cfg : Cfg} (hen : cfg.enable = true)
    {p : PreQ} {u : Nat} {ts : List TickQ} (hpr : p.ctl.Real) (htr : ∀ t ∈ ts, t.ctl.Real) (ha : ampleRun cfg p (StageManager.new u) ts x = true)
    (e : preprocessQ cfg p x = .ok y) {z : Timed} (e1 : timedLoopQ cfg ts (y, 0, (StageManager.new u).initialize 32) = .ok z)
    {o : Orc} {s : Stk} (hd : decideStep o z.1.s = some s) {q : Nat} {db' : Cdb} {s' : Stk} (e2 : propagate q z.1.db s = .ok db' s') {c : Cls} (hcl : Held db' c) :
    Quiet s' c := by
  refine C07_propagation_complete_partial (F := F) (cfg := cfg) ?_ hd e2 hcl
  obtain ⟨c, h1, hsw⟩ := preprocessQ_eq (cfg := cfg) (o := p) h.bok.1 hc
  unfold ampleRun at ha
  rw [Bool.and_eq_true, e] at ha
  have hL := hsw y e hen hpr ha.1
  rw [h1] at e
  obtain ⟨F', -, hz⟩ := preprocess_any h.bok.1 e
  obtain ⟨v1, -⟩ := preprocess_lv h e
  have hcy : y.cnf = x.s.numVars := by
    rw [← hc]
    unfold preprocess at e
    split at e
    · cases e
    obtain ⟨_, -, e⟩ := Res.bind_ok e
    obtain ⟨_, -, e⟩ := Res.bind_ok e
    obtain ⟨_, -, e⟩ := Res.bind_ok e
    obtain ⟨_, -, e⟩ := Res.bind_ok e
    obtain ⟨_, -, e⟩ := Res.bind_ok e
    cases e; rfl
  have hac := preprocess_ac h e
  obtain ⟨cs, -, e3, e4⟩ := timedLoopQ_eq (cfg := cfg) (ts := ts) (n := 0) (m := (StageManager.new u).initialize 32) Luby.inv_default hz hcy v1
  rw [e3] at e1
  exact timedLoop_tidy Luby.inv_default (.start h e (.inr (.inr (hL.swept hz.pinv.inv hac)))) (e4 hac hen htr ha.2) e1

/-- The parameters of the code, with any budget. -/
theorem stdCtl_real (b : Nat) : (stdCtl b).Real := ⟨le_refl _, fun _ _ h => ⟨0, h⟩⟩

/-- The loop has ended: what follows does not matter. -/
theorem ampleTicks_over {cfg : Cfg} {ts : List TickQ} {z : Timed} (h : z.1.s.running = false) : ampleTicks cfg ts z = true := by
  cases ts with
  | nil => rfl
  | cons t ts => unfold ampleTicks; simp [h]

theorem ampleTicks_append {cfg : Cfg} : ∀ {ts us : List TickQ} {z : Timed}, ampleTicks cfg ts z = true →
    (∀ z', timedLoopQ cfg ts z = .ok z' → ampleTicks cfg us z' = true) → ampleTicks cfg (ts ++ us) z = true
  | [], us, z, _, h => h z rfl
  | t :: ts, us, z, h1, h2 => by
    unfold ampleTicks at h1
    rw [List.cons_append]
    unfold ampleTicks
    unfold timedLoopQ at h2
    by_cases hr : z.1.s.running = true
    · rw [if_pos hr] at h1 h2 ⊢
      rw [Bool.and_eq_true] at h1 ⊢
      refine ⟨h1.1, ?_⟩
      have h3 := h1.2
      cases e : timedStepQ cfg t z with
      | ok w =>
        rw [e] at h3 h2
        exact ampleTicks_append h3 h2
      | _ => rfl
    · rw [if_neg hr]

/-- One can check that a run is ample by following it until the loop ends. -/
theorem ampleRun_append {cfg : Cfg} {p : PreQ} {m : StageManager} {ts us : List TickQ} {x : Sol} (h : ampleRun cfg p m ts x = true)
    (h1 : ((preprocessQ cfg p x).every fun y => (timedLoopQ cfg ts (y, 0, m.initialize 32)).every fun z => !z.1.s.running) = true) : ampleRun cfg p m (ts ++ us) x = true := by
  unfold ampleRun at h ⊢
  rw [Bool.and_eq_true] at h ⊢
  refine ⟨h.1, ?_⟩
  have h2 := h.2
  cases e : preprocessQ cfg p x with
  | ok y =>
    rw [e] at h1 h2
    refine ampleTicks_append h2 fun z ez => ampleTicks_over ?_
    have h3 : ((timedLoopQ cfg ts (y, 0, m.initialize 32)).every fun z => !z.1.s.running) = true := h1
    rw [ez] at h3
    simpa [Res.every] using h3
  | _ => rfl

/-- The eliminator removes five variables and finds a literal; 21 clauses are left, and in the main loop there is a conflict. -/
def exAmple : List (List Int) :=
  [[7, -2, 12], [4, -12], [-7, 11], [4, -12], [12, 10, 1], [12, -11, 7], [4, -6, 12], [5, -10, 11], [-2, -3, 8], [6, 11, -1], [-6, 7, 2], [-2, -10], [-2, -12, -7],
   [-12, 6, -3], [-2, 8], [-8, 1, -3], [11, -12, 2], [5, 11, 4], [-7, 12, 4], [5, 6, -11], [9, -11, -8], [-3, 9, -2], [-5, 8, -4], [-12, -6, 9], [12, -7], [-5, 10, 12],
   [-6, -1, 7], [8, 10, -4], [10, 11, 6], [9, -7, -3], [1, -8], [5, -8], [7, 3], [12, 10], [-11, -3], [9, 7], [5, 8], [8, 7]]

example : ∃ ts : List TickQ, Built (exAmple.map clsOf) (exSolver 12 exAmple) ∧ (exSolver 12 exAmple).s.numVars < 65535 ∧ (exSolver 12 exAmple).cnf = (exSolver 12 exAmple).s.numVars ∧
    ((stdPre 2000).oom = false ∧ (stdPre 2000).oom1 = false ∧ (stdPre 2000).oom2 = false) ∧ (∀ t ∈ ts, t.t.st.timeout = false ∧ t.t.st.oom = false) ∧
    (stdPre 2000).ctl.Real ∧ (∀ t ∈ ts, t.ctl.Real) ∧ ampleRun {} (stdPre 2000) (StageManager.new 32) ts (exSolver 12 exAmple) = true ∧
    answerBound (exSolver 12 exAmple).s.numVars ≤ ts.length := by
  refine ⟨List.replicate 9 (plainQ 2000) ++ List.replicate (answerBound (exSolver 12 exAmple).s.numVars) (plainQ 2000), exBuilt (by decide +kernel), by decide +kernel,
    by decide +kernel, ⟨rfl, rfl, rfl⟩, fun t ht => ?_, stdCtl_real _, fun t ht => ?_, ampleRun_append (by decide +kernel) (by decide +kernel), ?_⟩
  · have : t = plainQ 2000 := by
      rcases List.mem_append.1 ht with h | h <;> exact (List.mem_replicate.1 h).2
    rw [this]; exact ⟨rfl, rfl⟩
  · have : t = plainQ 2000 := by
      rcases List.mem_append.1 ht with h | h <;> exact (List.mem_replicate.1 h).2
    rw [this]; exact stdCtl_real _
  · rw [List.length_append, List.length_replicate, List.length_replicate]; exact Nat.le_add_left _ _

example : (match preprocessQ {} (stdPre 2000) (exSolver 12 exAmple) with
    | .ok y =>
      decide (((List.range 13).filter y.s.elim).length = 5 ∧ y.s.trail.length = 1) && decide ((y.db.ids.filter fun i => decide ((y.db.clause i).lits ≠ [])).length = 21) &&
        (match timedLoopQ {} (List.replicate 30 (plainQ 2000)) (y, 0, (StageManager.new 32).initialize 32) with | .ok z => decide (z.2.1 = 1) && !z.1.s.running | _ => false)
    | _ => false) = true := by decide +kernel

/-- The clauses with which C07 is violated, where the occurrence limit is 2: with the default limit the run is ample, and five literals are found. -/
example : Built (exReal2.map clsOf) (exSolver 12 exReal2) ∧ (exSolver 12 exReal2).cnf = (exSolver 12 exReal2).s.numVars ∧ amplePre {} (stdPre 2000) (exSolver 12 exReal2) = true ∧
    amplePre { evo := 2 } (stdPre 2000) (exSolver 12 exReal2) = false ∧
    (match preprocessQ {} (stdPre 2000) (exSolver 12 exReal2) with | .ok y => decide (4 < y.s.trail.length) | _ => false) = true :=
  ⟨exBuilt (by decide +kernel), by decide +kernel, by decide +kernel, by decide +kernel, by decide +kernel⟩

end Splr
