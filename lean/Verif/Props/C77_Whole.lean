import Verif.Lemmas.Whole
import Verif.Props.C57_Ample
/-!
# C77: the solver with its own choices

`solveW` (Verif/Model/Whole.lean) is `solve` in which the clauses to be deleted, the clauses to be vivified, the ends of the stages and the loops of the
eliminator are those of the code. Open are floating-point statistics, clocks and memory limits.
-/
namespace Splr
open Stk Stage LubySpec

variable {K : Type} [LinearOrder K]

omit [LinearOrder K] in
theorem sameOpen_length {ts : List (TickW K)} {qs : List TickQ} (h : List.Forall₂ SameOpen ts qs) : qs.length = ts.length := h.length_eq.symm

omit [LinearOrder K] in
theorem sameOpen_mem {ts : List (TickW K)} {qs : List TickQ} (h : List.Forall₂ SameOpen ts qs) {t' : TickQ} (ht : t' ∈ qs) :
    ∃ t ∈ ts, t'.ctl = t.ctl ∧ t'.t.st.timeout = t.timeout ∧ t'.t.st.oom = t.oom := by
  induction h with
  | nil => simp at ht
  | cons h1 _ ih =>
    rcases List.mem_cons.1 ht with rfl | ht
    · obtain ⟨g, vs, us, rfl⟩ := h1
      exact ⟨_, by simp, rfl, rfl, rfl⟩
    · obtain ⟨t, m, h⟩ := ih ht
      exact ⟨t, by simp [m], h⟩

/-- **C77.** The choices of the code are some of those that are arbitrary in `solve`: whatever holds of `solve` for all choices holds of `solveW`. -/
theorem C77_refines {F : Form} {x : Sol} (h : Built F x) (hc : x.cnf = x.s.numVars) (c : CfgW) (p : PreW) (u : Nat) (n : Counts) (ts : List (TickW K))
    (low : Nat → Bool) : ∃ (q : Pre) (os : List Orc), os.length = ts.length ∧ solveW c p (StageManager.new u) n ts low x = solve c.cfg q os low x := by
  obtain ⟨q, qs, -, h2, h3, -⟩ := solveW_choice c p (StageManager.new u) n ts low x
  obtain ⟨q', qs', e1, e2⟩ := C56_loops_are_commands h hc c.cfg q u qs low
  obtain ⟨os, e3, e4⟩ := C54_stage_manager_is_a_choice c.cfg q' u qs' low x
  exact ⟨q', os, by rw [e3, e1, sameOpen_length h2], by rw [h3, e2, e4]⟩

/-- **C77.** Its models are models, and its UNSAT answers are correct. -/
theorem C77_sound {F : Form} {x : Sol} (h : Built F x) (hc : x.cnf = x.s.numVars) (c : CfgW) (p : PreW) (u : Nat) (n : Counts) (ts : List (TickW K))
    (low : Nat → Bool) :
    (∀ vals y, solveW c p (StageManager.new u) n ts low x = .sat vals y → Form.sat (valsAsg vals) F) ∧
    (c.cfg.enable = true → ∀ db, solveW c p (StageManager.new u) n ts low x = .unsat db → ¬ F.Satisfiable) := by
  obtain ⟨q, os, -, e⟩ := C77_refines h hc c p u n ts low
  rw [e]
  exact ⟨fun vals y hs => C01_sat_answers_are_models h c.cfg q os low (by rw [hs]; rfl), fun hen db hs => C02_unsat_answers_are_correct h hen q os low (by rw [hs]; rfl)⟩

/-- **C77.** It does not panic, and no loop runs forever. -/
theorem C77_never_panics {F : Form} {x : Sol} (h : Built F x) (hn : x.s.numVars < 65535) (hc : x.cnf = x.s.numVars) (c : CfgW) (p : PreW) (u : Nat) (n : Counts)
    (ts : List (TickW K)) (low : Nat → Bool) :
    solveW c p (StageManager.new u) n ts low x ≠ .panic ∧ solveW c p (StageManager.new u) n ts low x ≠ .fuel := by
  obtain ⟨q, os, -, e⟩ := C77_refines h hc c p u n ts low
  rw [e]
  exact C52_solve_never_panics h hn (by omega) c.cfg q os low

/-- **C77.** It terminates. -/
theorem C77_terminates {F : Form} {x : Sol} (h : Built F x) (hc : x.cnf = x.s.numVars) (c : CfgW) (p : PreW) (u : Nat) (n : Counts) {ts : List (TickW K)}
    (hl : answerBound x.s.numVars ≤ ts.length) (low : Nat → Bool) (y : Sol) : solveW c p (StageManager.new u) n ts low x ≠ .more y := by
  obtain ⟨q, qs, -, h2, h3, -⟩ := solveW_choice c p (StageManager.new u) n ts low x
  rw [h3]
  exact C56_terminates h hc c.cfg q u (by rw [sameOpen_length h2]; exact hl) low y

/-- **C77.** It is a decision procedure: without limits on time and memory, and if the eliminator reaches none of its limits, it answers SAT with a model of
the given clauses, or UNSAT and there is none. -/
theorem C77_decides {F : Form} {x : Sol} (h : Built F x) (hn : x.s.numVars < 65535) (hc : x.cnf = x.s.numVars) {c : CfgW} (hen : c.cfg.enable = true)
    {p : PreW} {u : Nat} {n : Counts} {ts : List (TickW K)} (hp : p.oom = false ∧ p.oom1 = false ∧ p.oom2 = false)
    (hts : ∀ t ∈ ts, t.timeout = false ∧ t.oom = false) (hpr : p.ctl.Real) (htr : ∀ t ∈ ts, t.ctl.Real)
    (ha : ampleRunW c p (StageManager.new u) n ts x = true) (hl : answerBound x.s.numVars ≤ ts.length) (low : Nat → Bool) :
    (∃ vals y, solveW c p (StageManager.new u) n ts low x = .sat vals y ∧ Form.sat (valsAsg vals) F) ∨
    (∃ db, solveW c p (StageManager.new u) n ts low x = .unsat db ∧ ¬ F.Satisfiable) := by
  obtain ⟨q, qs, ⟨us, rfl⟩, h2, h3, h4⟩ := solveW_choice c p (StageManager.new u) n ts low x
  rw [h3]
  refine C57_decides h hn hc hen hp (fun t ht => ?_) hpr (fun t ht => ?_) (h4 ▸ ha) (by rw [sameOpen_length h2]; exact hl) low
  · obtain ⟨t', m, -, e1, e2⟩ := sameOpen_mem h2 ht
    rw [e1, e2]; exact hts t' m
  · obtain ⟨t', m, e, -⟩ := sameOpen_mem h2 ht
    rw [e]; exact htr t' m

/-! ## Which conflicts count -/

theorem lbd_gt {level : Nat → Nat} {c : Cls} : 1 < lbdOf level c ↔
    8192 ≤ c.length ∨ ∃ a ∈ c, ∃ b ∈ c, level a.var ≠ level b.var ∧ 0 < level a.var ∧ 0 < level b.var := by
  unfold lbdOf
  split
  · rename_i h; simp [h]
  · rename_i h
    set d := ((c.map fun l => level l.var).filter (· ≠ 0)).dedup with hd
    have hm : ∀ k, k ∈ d ↔ ∃ a ∈ c, level a.var = k ∧ 0 < k := by
      intro k
      rw [hd, List.mem_dedup, List.mem_filter, List.mem_map]
      simp only [decide_eq_true_eq, ne_eq]
      constructor
      · rintro ⟨⟨a, h1, h2⟩, h3⟩; exact ⟨a, h1, h2, by omega⟩
      · rintro ⟨a, h1, h2, h3⟩; exact ⟨⟨a, h1, h2⟩, by omega⟩
    have hnd : d.Nodup := List.nodup_dedup _
    constructor
    · intro hl
      right
      match d, hl, hnd, hm with
      | k :: k' :: tl, _, hnd, hm =>
        obtain ⟨a, a1, a2, a3⟩ := (hm k).1 (by simp)
        obtain ⟨b, b1, b2, b3⟩ := (hm k').1 (by simp)
        simp only [List.nodup_cons, List.mem_cons, not_or] at hnd
        exact ⟨a, a1, b, b1, by rw [a2, b2]; exact hnd.1.1, by omega, by omega⟩
    · rintro (h' | ⟨a, a1, b, b1, hne, ha, hb⟩)
      · exact absurd h' h
      · have h1 := (hm _).2 ⟨a, a1, rfl, ha⟩
        have h2 := (hm _).2 ⟨b, b1, rfl, hb⟩
        match d, h1, h2 with
        | [k], h1, h2 => simp at h1 h2; omega
        | k :: k' :: tl, _, _ => simp

theorem newClause_rank {db db' : Cdb} {level : Nat → Nat} {vec : Cls} {learnt : Bool} {cid : Nat} (h : db.WF)
    (e : db.newClause level vec learnt = some (db', .clause cid)) : (db'.clause cid).rank = if vec.length = 2 then 1 else lbdOf level vec := by
  unfold Cdb.newClause at e
  split at e
  next l0 l1 tl =>
    split at e
    next => simp at e
    next hs =>
      simp only [Option.some.injEq, Prod.mk.injEq, RefClause.clause.injEq] at e
      obtain ⟨rfl, rfl⟩ := e
      have h1 : (db.log (.add (l0 :: l1 :: tl))).WF := h.congr rfl rfl rfl rfl rfl rfl
      rw [Cdb.attach_clause]
      have ha := Cdb.alloc_spec h1 (Cl.mk (l0 :: l1 :: tl) (learnt && !tl.isEmpty) 2 (if tl.isEmpty = true then 1 else lbdOf level (l0 :: l1 :: tl)) false false) (by simp)
      show ((Cdb.alloc _ _).1.clause _).rank = _
      rw [ha.2.1, upd_same]
      cases tl <;> simp
  next => simp at e

/-- **C77.** A conflict counts for the length of a stage exactly if the solver has learnt a new clause of more than two literals from at least two
levels other than the root (or of 8192 or more literals). -/
theorem C77_counted {cfg : Cfg} {F : Form} {db db' : Cdb} {s s' : Stk} {l : Lit} {r : Reason} (h : Conflict cfg F db s l r) (hd : 0 < s.dl)
    {low : Nat → Bool} {rr : Option Nat} {drift : Bool} {rank : Nat} (e : handleConflictW db s low rr drift l r = .ok db' s' rank) :
    1 < rank ↔ ∃ i, (db.clause i).lits = [] ∧ 2 < (db'.clause i).lits.length ∧
      (8192 ≤ (db'.clause i).lits.length ∨
        ∃ a ∈ (db'.clause i).lits, ∃ b ∈ (db'.clause i).lits, s.level a.var ≠ s.level b.var ∧ 0 < s.level a.var ∧ 0 < s.level b.var) := by
  obtain ⟨p, -, hc, -⟩ := h.inv
  have hpw : (db.rerankOne s.level rr).WF := wf_rerankOne p.wf s.level rr
  have hlits : ∀ i, ((db.rerankOne s.level rr).clause i).lits = (db.clause i).lits := fun i => (rerankOne_lits db s.level rr i).1
  have hno : ∀ i, (db.clause i).lits = [] → ((db.rerankOne s.level rr).clause i).lits = [] := fun i hi => by rw [hlits i]; exact hi
  unfold handleConflictW at e
  split at e
  · simp at e
  · cases ea : conflictAnalyze db s l r with
    | none => rw [ea] at e; simp at e
    | some t =>
      obtain ⟨v, lv, seen⟩ := t
      have hl := (conflictAnalyze_spec p.wf p.inv hd hc ea).1
      rw [ea] at e
      rcases v with _ | ⟨l0, _ | ⟨l1, tl⟩⟩
      · simp at e
      · simp only [] at e
        unfold learnUnitW at e
        split at e
        · simp at e
        · split at e
          · simp at e
          · split at e
            · simp only [HResW.ok.injEq] at e
              obtain ⟨rfl, -, rfl⟩ := e
              refine ⟨fun h => by omega, ?_⟩
              rintro ⟨i, h1, h2, -⟩
              have : (((db.rerankOne s.level rr).log (.add [l0])).clause i).lits = [] := hno i h1
              rw [this] at h2; simp at h2
            · simp at e
      · simp only [] at e
        unfold learnClauseW at e
        simp only [] at e
        generalize hs1 : (if (drift && decide (0 < lv) && decide (2 < (l0 :: l1 :: tl).length)) = true then (s.cancelUntil low (lv - 1)).clearSaved
          else s.cancelUntil low lv) = s1 at e
        have hlv : s1.level = s.level := by
          rw [← hs1]; split
          · exact cancelUntil_level
          · exact cancelUntil_level
        rw [hlv] at e
        cases en : (db.rerankOne s.level rr).newClause s.level (l0 :: l1 :: tl) true with
        | none => rw [en] at e; simp at e
        | some y =>
          obtain ⟨db1, rf⟩ := y
          obtain ⟨w, hcase⟩ := Cdb.newClause_spec hpw hl.nd en
          rw [en] at e
          rcases hcase with ⟨cid, a, b, rfl, rfl, hv, -⟩ | ⟨cid, k, rfl, -, -, hdead, elits, h2, -, -, -, ecl, -⟩
          · simp only [] at e
            have hr : db' = db.rerankOne s.level rr ∧ rank = 1 := by
              split at e <;> · simp only [HResW.ok.injEq] at e; exact ⟨e.1.symm, e.2.2.symm⟩
            obtain ⟨rfl, rfl⟩ := hr
            refine ⟨fun h => by omega, ?_⟩
            rintro ⟨i, h1, h2, -⟩
            rw [hno i h1] at h2; simp at h2
          · have hrk := newClause_rank hpw en
            simp only [] at e
            have hr : db' = db1 ∧ rank = if (l0 :: l1 :: tl).length = 2 then 1 else (db1.clause cid).rank := by
              split at e <;> · simp only [HResW.ok.injEq] at e; exact ⟨e.1.symm, e.2.2.symm⟩
            obtain ⟨rfl, rfl⟩ := hr
            have hlit : (db'.clause cid).lits = l0 :: l1 :: tl := by rw [ecl, upd_same, elits]
            have hother : ∀ i, i ≠ cid → (db.clause i).lits = [] → (db'.clause i).lits = [] := fun i hi h => by rw [ecl, upd_of_ne _ _ hi]; exact hno i h
            rw [hrk]
            constructor
            · intro hlt
              have hlen : (l0 :: l1 :: tl).length ≠ 2 := by intro h; rw [if_pos h] at hlt; omega
              rw [if_neg hlen, if_neg hlen, lbd_gt] at hlt
              refine ⟨cid, by rw [← hlits]; exact hdead, by rw [hlit]; omega, ?_⟩
              rw [hlit]; exact hlt
            · rintro ⟨i, h1, h2, h3⟩
              have hi : i = cid := by
                by_contra hi
                rw [hother i hi h1] at h2; simp at h2
              subst hi
              rw [hlit] at h2 h3
              have hlen : (l0 :: l1 :: tl).length ≠ 2 := by omega
              rw [if_neg hlen, if_neg hlen, lbd_gt]
              exact h3

/-! ## What happens at the end of a stage -/

/-- Within a cycle: of the learnt clauses of rank above 4 the worst by activity are deleted, as many as the length of the stage that begins, less its power. At
the beginning of a cycle: of those that are also above the threshold of the configuration the worst by rank are deleted, all but the power of their number. -/
def Reduces (c : CfgW) (m : StageManager) (flag : Option Bool) (k : Keys K) (level : Nat → Nat) (db db' : Cdb) : Prop :=
  match flag with
  | none => ReducedTo db level k (.rasOnAdd (m.cycle * m.unitSize - c.power1 (m.cycle * m.unitSize)))
      (fun n => n - (m.cycle * m.unitSize - c.power1 (m.cycle * m.unitSize))) db'
  | some _ => ReducedTo db level k (.lbdOnAll c.rdcLbd c.power2) c.power2 db'

/-- **C77.** The end of a stage: a restart, the facts are removed from the clauses, clauses are deleted according to the kind of the stage that begins;
at the beginning of a cycle clauses are vivified by the rule for later stages (C75), each time for the next rank, and at the beginning of a segment the eliminator is run. -/
theorem C77_stage_end {cfg : Cfg} {F : Form} {x y : Sol} (h : Head cfg F x) {c : CfgW} {t : TickW K} {m : StageManager} {flag : Option Bool} {n n' : Counts}
    (e : stageStepW c t m flag n x = .ok (y, n')) :
    n'.restarts = n.restarts + 1 ∧ n'.vivs = (if flag.isSome then n.vivs + 1 else n.vivs) ∧
    ∃ d1 d2, clearAsserted (x.db, x.s.restart t.o.low2) = .ok d1 ∧ Reduces c m flag t.keys d1.2.level d1.1 d2.1 ∧ d2.2 = d1.2 ∧
      match flag with
      | none => y = { x with db := d2.1, s := d2.2.clearSaved }
      | some seg => ∃ d3, vivifyAll c.vivLimit false (n.vivs % 32) t.used d2 = .ok d3 ∧
          if seg then ∃ z, segmentElimW c t.ctl t.oom { x with db := d3.1, s := d3.2 } = .ok z ∧ y = { z with s := z.s.clearSaved }
          else y = { x with db := d3.1, s := d3.2.clearSaved } := by
  unfold stageStepW at e
  split at e
  · cases e
  simp only [] at e
  obtain ⟨d1, e1, e⟩ := Res.bind_ok e
  have hi : Inner cfg F d1 none := .clearAsserted (.restart h t.o.low2) e1
  obtain ⟨d2, e2, e⟩ := Res.bind_ok e
  obtain ⟨db', r1, r2, -⟩ := C64_in_the_search hi t.keys (reductionW c m flag.isSome)
  unfold reduceW at e2
  rw [r1] at e2
  cases e2
  have hred : Reduces c m flag t.keys d1.2.level d1.1 db' := by
    rcases flag with _ | _
    · exact r2
    · exact r2
  rcases flag with _ | seg
  · obtain ⟨⟨y', n1⟩, e3, e⟩ := Res.bind_ok e
    cases e3; cases e
    exact ⟨rfl, rfl, d1, (db', d1.2), e1, hred, rfl, rfl⟩
  · obtain ⟨⟨y', n1⟩, e3, e⟩ := Res.bind_ok e
    cases e
    simp only [Option.isSome_some, if_true] at e3
    obtain ⟨d3, e4, e3⟩ := Res.bind_ok e3
    obtain ⟨z, e5, e3⟩ := Res.bind_ok e3
    cases e3
    refine ⟨rfl, rfl, d1, (db', d1.2), e1, hred, rfl, d3, ?_, ?_⟩
    · rw [← e4]
      unfold vivifyW
      congr 1
    · cases seg with
      | true => exact ⟨_, by simpa using e5, rfl⟩
      | false =>
        simp only [Option.some.injEq, Bool.false_eq_true, if_false, Res.ok.injEq] at e5
        rw [← e5]
        rfl

/-! ## The stages of a run -/

theorem stageStepW_counts {c : CfgW} {t : TickW K} {m : StageManager} {flag : Option Bool} {n n' : Counts} {x y : Sol}
    (e : stageStepW c t m flag n x = .ok (y, n')) : n'.restarts = n.restarts + 1 ∧ n'.vivs = (if flag.isSome then n.vivs + 1 else n.vivs) := by
  unfold stageStepW at e
  split at e
  · cases e
  simp only [] at e
  obtain ⟨d1, -, e⟩ := Res.bind_ok e
  obtain ⟨d2, -, e⟩ := Res.bind_ok e
  obtain ⟨⟨y', n1⟩, e3, e⟩ := Res.bind_ok e
  cases e
  split at e3
  · rename_i hf
    rw [if_pos hf]
    obtain ⟨d3, -, e3⟩ := Res.bind_ok e3
    obtain ⟨z, -, e3⟩ := Res.bind_ok e3
    cases e3
    exact ⟨rfl, rfl⟩
  · rename_i hf
    rw [if_neg hf]
    cases e3; exact ⟨rfl, rfl⟩

/-- Invariant of the main loop of the first search: `j` stages have ended. -/
def AtStage (r v : Nat) (z : Whole) (j : Nat) : Prop :=
  Sched 32 j z.2.2.1 ∧ z.2.1 < ends 32 j ∧ (∀ i, i < j → ends 32 i ≤ z.2.1) ∧ z.2.2.2.vivs = v + ones j ∧ r + j ≤ z.2.2.2.restarts

theorem conflictW_stage {c : CfgW} {t : TickW K} {rank : Nat} {x : Sol} {n : Nat} {m : StageManager} {k : Counts} {r v j : Nat} {x0 : Sol}
    (h : AtStage r v (x0, n, m, k) j) {z' : Whole} (e : conflictW c t rank x n m k = .ok z') :
    z'.2.1 = (if 1 < rank then n + 1 else n) ∧ ∃ j', AtStage r v z' j' := by
  obtain ⟨h1, h2, h3, h4, h5⟩ := h
  simp only [] at h1 h2 h3 h4 h5
  unfold conflictW at e
  simp only [] at e
  generalize hn : (if 1 < rank then n + 1 else n) = n1 at e
  have hn1 : n ≤ n1 ∧ n1 ≤ n + 1 := by subst hn; split <;> omega
  split at e
  · rename_i he
    have he : m.endOfStage = n1 := by simpa [StageManager.ended] using he
    obtain ⟨m', hp, hs⟩ := sched_step 32 j m h1
    rw [← h1.fin, he] at hp
    rw [hp] at e
    simp only [] at e
    obtain ⟨⟨y, k'⟩, e1, e⟩ := Res.bind_ok e
    cases e
    obtain ⟨c1, c2⟩ := stageStepW_counts e1
    refine ⟨rfl, j + 1, hs, ?_, ?_, ?_, ?_⟩
    · show n1 < _
      have := ends_lt 32 j (by omega)
      rw [← he, h1.fin]; exact this
    · intro i hi
      show ends 32 i ≤ n1
      rcases Nat.lt_succ_iff_lt_or_eq.1 hi with h | h
      · have := h3 i h; omega
      · rw [h, ← h1.fin, he]
    · show k'.vivs = _
      rw [c2]
      unfold ones stageFlag
      split <;> split <;> simp_all; omega
    · show _ ≤ k'.restarts
      rw [c1]; omega
  · rename_i he
    have he : m.endOfStage ≠ n1 := by simpa [StageManager.ended] using he
    rw [h1.fin] at he
    have hlt : n1 < ends 32 j := by omega
    split at e <;> cases e
    · exact ⟨rfl, j, h1, hlt, fun i hi => Nat.le_trans (h3 i hi) hn1.1, h4, by show _ ≤ k.restarts + 1; omega⟩
    · exact ⟨rfl, j, h1, hlt, fun i hi => Nat.le_trans (h3 i hi) hn1.1, h4, h5⟩

theorem loopW_stage {c : CfgW} {r v : Nat} : ∀ {ts : List (TickW K)} {z z' : Whole} {j : Nat}, AtStage r v z j → loopW c ts z = .ok z' → ∃ j', AtStage r v z' j'
  | [], z, z', j, h, e => by cases e; exact ⟨j, h⟩
  | t :: ts, z, z', j, h, e => by
    unfold loopW at e
    split at e
    · obtain ⟨w, e1, e⟩ := Res.bind_ok e
      have : ∃ j', AtStage r v w j' := by
        unfold stepW at e1
        split at e1
        · cases e1
        split at e1
        · cases e1; exact ⟨j, h⟩
        · cases e1
        · cases e1
        · split at e1
          · cases e1
          · split at e1
            · cases e1
            · cases e1
            · exact (conflictW_stage h e1).2
      obtain ⟨j', h'⟩ := this
      exact loopW_stage h' e
    · cases e; exact ⟨j, h⟩

/-- **C77.** The stages of the first search follow the Luby sequence, whatever happens: when `n` conflicts have counted, exactly the stages `i` with
`ends 32 i ≤ n` have ended; the current one ends at the next of these numbers; clauses were vivified once for each cycle begun, and the solver
has restarted at least once for each stage ended. -/
theorem C77_schedule {c : CfgW} {u r v : Nat} {ts : List (TickW K)} {y z : Sol} {n : Nat} {m : StageManager} {k : Counts}
    (e : loopW c ts (y, 0, (StageManager.new u).initialize 32, ⟨r, v⟩) = .ok (z, n, m, k)) :
    ∃ j, (∀ i, i < j ↔ ends 32 i ≤ n) ∧ m.endOfStage = ends 32 j ∧ k.vivs = v + ones j ∧ r + j ≤ k.restarts := by
  have h0 : AtStage r v (y, 0, (StageManager.new u).initialize 32, ⟨r, v⟩) 0 :=
    ⟨sched_init u 32, by show (0 : Nat) < 32; omega, by simp, rfl, Nat.le_refl _⟩
  obtain ⟨j, h1, h2, h3, h4, h5⟩ := loopW_stage h0 e
  refine ⟨j, fun i => ⟨h3 i, fun hi => ?_⟩, h1.fin, h4, h5⟩
  by_contra hlt
  have := ends_mono 32 (by omega) (Nat.le_of_not_lt hlt)
  have h2 : n < ends 32 j := h2
  omega

/-- **C77.** An iteration of the main loop: without a conflict no counter changes; with a conflict the counter of the stages is increased exactly if a new
clause of more than two literals from two levels (or of at least 8192 literals) was learnt. -/
theorem C77_iteration {cfg : Cfg} {F : Form} {z z' : Whole} (h : Head cfg F z.1) (hr : z.1.s.running = true) {c : CfgW} {t : TickW K}
    (e : stepW c t z = .ok z') :
    ∃ s, decideStep t.o z.1.s = some s ∧
    ((∃ db1 s1, Stk.propagate t.o.q z.1.db s = .ok db1 s1 ∧ z' = ({ z.1 with db := db1, s := s1 }, z.2)) ∨
    ∃ db1 s1 l r db2 s2, Stk.propagate t.o.q z.1.db s = .conflict db1 s1 l r ∧ handleConflict db1 s1 t.o.low t.o.rr t.o.drift l r = .ok db2 s2 ∧
      ((∃ i, (db1.clause i).lits = [] ∧ 2 < (db2.clause i).lits.length ∧ (8192 ≤ (db2.clause i).lits.length ∨
        ∃ a ∈ (db2.clause i).lits, ∃ b ∈ (db2.clause i).lits, s1.level a.var ≠ s1.level b.var ∧ 0 < s1.level a.var ∧ 0 < s1.level b.var)) →
        z'.2.1 = z.2.1 + 1) ∧
      (¬ (∃ i, (db1.clause i).lits = [] ∧ 2 < (db2.clause i).lits.length ∧ (8192 ≤ (db2.clause i).lits.length ∨
        ∃ a ∈ (db2.clause i).lits, ∃ b ∈ (db2.clause i).lits, s1.level a.var ≠ s1.level b.var ∧ 0 < s1.level a.var ∧ 0 < s1.level b.var)) →
        z'.2.1 = z.2.1)) := by
  unfold stepW at e
  split at e
  · cases e
  rename_i s hs
  refine ⟨s, hs, ?_⟩
  split at e
  · rename_i db1 s1 hp
    cases e
    exact .inl ⟨db1, s1, hp, rfl⟩
  · cases e
  · cases e
  · rename_i db1 s1 l r hp
    right
    split at e
    · cases e
    · rename_i hd
      split at e
      · cases e
      · cases e
      · rename_i db2 s2 rank hh
        have hc : Conflict cfg F db1 s1 l r := .mk (.mk h hr hs) hp
        have hcount := C77_counted hc (by omega) hh
        have hres : handleConflict db1 s1 t.o.low t.o.rr t.o.drift l r = .ok db2 s2 := by
          rw [← handleConflictW_res, hh]; rfl
        refine ⟨db1, s1, l, r, db2, s2, hp, hres, ?_⟩
        have hn : z'.2.1 = if 1 < rank then z.2.1 + 1 else z.2.1 := by
          unfold conflictW at e
          simp only [] at e
          generalize (if 1 < rank then z.2.1 + 1 else z.2.1) = n1 at e ⊢
          split at e
          · split at e
            · cases e
            · obtain ⟨y, -, e⟩ := Res.bind_ok e
              cases e; rfl
          · split at e <;> cases e <;> rfl
        rw [hn, ← hcount]
        exact ⟨fun h => if_pos h, fun h => if_neg h⟩
/-! ## Examples -/

theorem ampleTicksW_over {c : CfgW} {ts : List (TickW K)} {z : Whole} (h : z.1.s.running = false) : ampleTicksW c ts z = true := by
  cases ts with
  | nil => rfl
  | cons t ts => unfold ampleTicksW; simp [h]

theorem ampleTicksW_append {c : CfgW} : ∀ {ts us : List (TickW K)} {z : Whole}, ampleTicksW c ts z = true →
    (∀ z', loopW c ts z = .ok z' → ampleTicksW c us z' = true) → ampleTicksW c (ts ++ us) z = true
  | [], us, z, _, h => h z rfl
  | t :: ts, us, z, h1, h2 => by
    unfold ampleTicksW at h1
    rw [List.cons_append]
    unfold ampleTicksW
    unfold loopW at h2
    by_cases hr : z.1.s.running = true
    · rw [if_pos hr] at h1 h2 ⊢
      rw [Bool.and_eq_true] at h1 ⊢
      refine ⟨h1.1, ?_⟩
      have h3 := h1.2
      cases e : stepW c t z with
      | ok w =>
        rw [e] at h3 h2
        exact ampleTicksW_append h3 h2
      | _ => rfl
    · rw [if_neg hr]

/-- One can check that a run is ample by following it until the loop ends. -/
theorem ampleRunW_append {c : CfgW} {p : PreW} {m : StageManager} {n : Counts} {ts us : List (TickW K)} {x : Sol} (h : ampleRunW c p m n ts x = true)
    (h1 : ((preprocessW c p n x).every fun y => (loopW c ts (y, 0, m.initialize 32, { n with vivs := n.vivs + 1 })).every fun z => !z.1.s.running) = true) :
    ampleRunW c p m n (ts ++ us) x = true := by
  unfold ampleRunW at h ⊢
  rw [Bool.and_eq_true] at h ⊢
  refine ⟨h.1, ?_⟩
  have h2 := h.2
  cases e : preprocessW c p n x with
  | ok y =>
    rw [e] at h1 h2
    refine ampleTicksW_append h2 fun z ez => ampleTicksW_over ?_
    have h3 : ((loopW c ts (y, 0, m.initialize 32, { n with vivs := n.vivs + 1 })).every fun z => !z.1.s.running) = true := h1
    rw [ez] at h3
    simpa [Res.every] using h3
  | _ => rfl

/-- Plain choices; half of the candidates are kept. -/
def exCfgW : CfgW := { power1 := fun n => n / 2, power2 := fun n => n / 2 }

/-- Plain choices. -/
def exTickW : TickW Int := { o := plainOrc, timeout := false, oom := false, ctl := stdCtl 2000, keys := exKeys, used := fun _ => 0 }

/-- Plain choices. -/
def exPreW : PreW := { oom := false, oom1 := false, ctl := stdCtl 2000, oom2 := false, used := fun _ => 0 }

/-- 51 clauses over 12 variables: vivification, the eliminator and the main loop all have something to do. -/
def exWhole : List (List Int) :=
  [[7, -8, -5], [-10, -8, -1, 3], [5, -6, -11], [-5, -3, -11, 9], [-7, -1, 12], [-7, 10, -9], [4, -12, 7], [-9, -5, 2, 6], [-8, 1, 5], [-6, 12, 4,
   11], [2, 5, -12, -4], [3, -5, 11], [-8, 1, 5], [-12, 9, -4], [-12, 5, 1], [4, -6, 11], [-12, -1, -10, -6], [10, 5, 8], [1, 10, 5], [11, -12, 10],
   [-3, 2, -10], [12, -5, 2], [-11, 6, -10], [-3, -10, -12], [10, -12, 6, 3], [-1, 8, 3], [-3, 5, -7], [2, 10, -4], [-7, -8, -5, 2], [12, -8, 9], [11,
   -5, -6], [-10, 11, 3], [-4, 7, -8], [8, 12, -10], [4, -3, -2], [1, -11, 3], [1, 2, 7, -8], [7, 9, -11, -6], [9, -6, 1, 11], [5, 12, -11], [10, -8,
   -11], [-6, 7, 1], [5, -4, 6], [-8, 5, 2], [-2, 12, 8], [-3, -1, 7], [9, 7, -2], [-8, -3, -11], [-7, -9, -1], [8, 2, -5], [-10, 4, -9]]

example : ∃ ts : List (TickW Int), Built (exWhole.map clsOf) (exSolver 12 exWhole) ∧ (exSolver 12 exWhole).s.numVars < 65535 ∧
    (exSolver 12 exWhole).cnf = (exSolver 12 exWhole).s.numVars ∧ exCfgW.cfg.enable = true ∧ (exPreW.oom = false ∧ exPreW.oom1 = false ∧ exPreW.oom2 = false) ∧
    (∀ t ∈ ts, t.timeout = false ∧ t.oom = false) ∧ exPreW.ctl.Real ∧ (∀ t ∈ ts, t.ctl.Real) ∧
    ampleRunW exCfgW exPreW (StageManager.new 32) {} ts (exSolver 12 exWhole) = true ∧ answerBound (exSolver 12 exWhole).s.numVars ≤ ts.length := by
  refine ⟨List.replicate 30 exTickW ++ List.replicate (answerBound (exSolver 12 exWhole).s.numVars) exTickW, exBuilt (by decide +kernel), by decide +kernel,
    by decide +kernel, rfl, ⟨rfl, rfl, rfl⟩, fun t ht => ?_, stdCtl_real _, fun t ht => ?_, ampleRunW_append (by decide +kernel) (by decide +kernel), ?_⟩
  · have : t = exTickW := by
      rcases List.mem_append.1 ht with h | h <;> exact (List.mem_replicate.1 h).2
    rw [this]; exact ⟨rfl, rfl⟩
  · have : t = exTickW := by
      rcases List.mem_append.1 ht with h | h <;> exact (List.mem_replicate.1 h).2
    rw [this]; exact stdCtl_real _
  · rw [List.length_append, List.length_replicate, List.length_replicate]; exact Nat.le_add_left _ _

/-- In this run a variable is eliminated, and the main loop has a conflict that counts. -/
example : (match preprocessW exCfgW exPreW {} (exSolver 12 exWhole) with
    | .ok y => decide (((List.range 13).filter y.s.elim).length = 1) && (match loopW exCfgW (List.replicate 30 exTickW) (y, 0, (StageManager.new 32).initialize 32, { vivs := 1 }) with
      | .ok z => decide (z.2.1 = 1) && !z.1.s.running | _ => false)
    | _ => false) = true := by decide +kernel

/-- The end of a stage: a learnt clause of six literals is deleted; at the beginning of a cycle it survives. -/
example : (headOf {} plainPre (List.replicate 6 plainOrc) (exSolver 7 exWide)).any (fun y => decide ((y.db.clause 4).lits.length = 6) &&
    (match stageStepW exCfgW exTickW { (StageManager.new 32) with cycle := 1 } none {} y with
      | .ok z => decide ((z.1.db.clause 4).lits = []) && z.2.restarts == 1 && z.2.vivs == 0 | _ => false) &&
    (match stageStepW { exCfgW with rdcLbd := 6 } exTickW { (StageManager.new 32) with cycle := 1 } (some false) {} y with
      | .ok z => decide ((z.1.db.clause 4).lits.length = 6) && z.2.vivs == 1 | _ => false)) = true := by decide +kernel

/-- A conflict that counts. -/
example : ∃ c : Conf, Conflict {} (exDeep.map clsOf) c.1 c.2.1 c.2.2.1 c.2.2.2 ∧ 0 < c.2.1.dl ∧
    ∃ db' s' rank, handleConflictW c.1 c.2.1 noLow none false c.2.2.1 c.2.2.2 = .ok db' s' rank ∧ 1 < rank := by
  have h : (match exConf with
    | some c => (match handleConflictW c.1 c.2.1 noLow none false c.2.2.1 c.2.2.2 with
      | .ok _ _ rank => decide (0 < c.2.1.dl ∧ 1 < rank)
      | _ => false)
    | none => false) = true := by decide +kernel
  split at h
  · rename_i c hc
    split at h
    · rename_i db' s' rank hs
      simp only [decide_eq_true_eq] at h
      exact ⟨c, Conflict.of exDeep_built hc, h.1, db', s', rank, hs, h.2⟩
    · cases h
  · cases h

end Splr
