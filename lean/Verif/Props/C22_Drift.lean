import Verif.Props.C01_C02_Solve
import Verif.Lemmas.ElimOcc
/-!
# C22, continued: how far the number of learnt clauses is off, and what the progress report makes of it

src/state.rs:549-556 prints `num_clause - num_learnt` as the number of permanent clauses (unsigned integers).
-/
namespace Splr

/-- Databases reachable from a fresh one by the operations of `ClauseDBIF` and by the promotions of learnt clauses in `try_subsume`
(src/processor/subsume.rs:35-37), with the number of promotions. -/
inductive DbRun : Nat → Cdb → Prop
  | new : DbRun 0 Cdb.new
  | step {k : Nat} {db db' : Cdb} (h : DbRun k db) (s : DbStep db db') : DbRun k db'
  | promote {k : Nat} {db : Cdb} (h : DbRun k db) (cid : Nat) (hl : (db.clause cid).lits ≠ []) (hp : (db.clause cid).learnt = true) :
      DbRun (k + 1) (turnOffLearnt db cid)

theorem DbRun.inv {k : Nat} {db : Cdb} (h : DbRun k db) : db.WF ∧ Cdb.Stats k db := by
  induction h with
  | new => exact ⟨Cdb.wf_new, rfl, rfl, rfl⟩
  | step _ s ih => exact ⟨Cdb.step_wf ih.1 s, Cdb.step_stats ih.1 ih.2 s⟩
  | @promote k db h cid hl hp ih =>
    obtain ⟨w, a, b, l⟩ := ih
    have hf : Cdb.Flags db (turnOffLearnt db cid) := flags_setC rfl (by simp) rfl
    refine ⟨hf.wf w, ?_⟩
    have hlt := w.lt_len hl
    have hcl : ∀ i, (turnOffLearnt db cid).clause i = if i = cid then { db.clause cid with learnt := false } else db.clause i := fun i => by
      simp [turnOffLearnt, Cdb.setC, upd_apply]
    have hc : ∀ q, Cdb.Live q → Cdb.cnt q (turnOffLearnt db cid) = Cdb.cnt q db - (if q (db.clause cid) then 1 else 0) +
        (if q ((turnOffLearnt db cid).clause cid) then 1 else 0) := fun q hq =>
      Cdb.cnt_upd hq w (db' := turnOffLearnt db cid) (cid := cid) hlt (Nat.le_refl _) fun i hi => by rw [hcl, if_neg hi]
    refine ⟨?_, ?_, ?_⟩
    · rw [hc _ Cdb.liveA, hcl, if_pos rfl]
      show db.numClause = _
      rw [a]; simp [Cdb.qA]
    · rw [hc _ Cdb.liveB, hcl, if_pos rfl]
      show db.numBiClause = _
      rw [b]; simp [Cdb.qB]
    · rw [hc _ Cdb.liveL, hcl, if_pos rfl]
      show db.numLearnt = _
      rw [l]; simp [Cdb.qL, hl, hp]

/-- **C22** for every history of database operations and promotions: the numbers of clauses and of binary clauses are exact, the number of learnt clauses is too large by
the number of promotions so far, and so the reported number of permanent clauses is too small by it. -/
theorem C22_drift {k : Nat} {db : Cdb} (h : DbRun k db) :
    db.numClause = countClauses db (fun c => c.lits ≠ []) ∧
    db.numBiClause = countClauses db (fun c => c.lits.length = 2) ∧
    db.numLearnt = countClauses db (fun c => c.lits ≠ [] ∧ c.learnt = true) + k ∧
    db.numClause - db.numLearnt = countClauses db (fun c => c.lits ≠ [] ∧ c.learnt = false) - k := by
  obtain ⟨-, a, b, l⟩ := h.inv
  have e1 : db.numClause = countClauses db (fun c => c.lits ≠ []) := by
    rw [a, Cdb.cnt, Cdb.cntN_range]; unfold countClauses; congr 2; funext i; rw [Bool.eq_iff_iff]; simp [Cdb.qA]
  have e3 : db.numLearnt = countClauses db (fun c => c.lits ≠ [] ∧ c.learnt = true) + k := by
    rw [l, Cdb.cnt, Cdb.cntN_range]; unfold countClauses; congr 3; funext i; rw [Bool.eq_iff_iff]; simp [Cdb.qL]
  refine ⟨e1, ?_, e3, ?_⟩
  · rw [b, Cdb.cnt, Cdb.cntN_range]; unfold countClauses; congr 2
  · have hsplit : countClauses db (fun c => c.lits ≠ []) =
        countClauses db (fun c => c.lits ≠ [] ∧ c.learnt = true) + countClauses db (fun c => c.lits ≠ [] ∧ c.learnt = false) := by
      unfold countClauses
      induction List.range db.len with
      | nil => rfl
      | cons i n ih =>
        simp only [List.countP_cons, ih]
        by_cases h1 : (db.clause i).lits = [] <;> by_cases h2 : (db.clause i).learnt = true <;> simp [h1, h2] <;> omega
    omega

example : ∃ db, DbRun 1 db ∧ db.numLearnt = 1 ∧ countClauses db (fun c => c.lits ≠ [] ∧ c.learnt = true) = 0 ∧ db.numClause = 3 := by
  have hr : ∀ {db}, DbReach db → DbRun 0 db := fun h => by
    induction h with
    | new => exact .new
    | step _ s ih => exact .step ih s
  exact ⟨turnOffLearnt exDb0 3, .promote (hr exDb0_reach) 3 (by decide +kernel) (by decide +kernel), by decide +kernel, by decide +kernel, by decide +kernel⟩

/-- Four clauses; the clause 1 ∨ 2 ∨ 3 is learnt and subsumes two of them. -/
def exDrift : List (List Int) := [[1, 2, 3, 4], [1, 2, 3, -4], [-1, -2, -3, 4], [-1, -2, -3, -4]]

/-- Decide negatively; a stage ends after the conflict, the learnt clause replaces the subsumed ones, and variable 1 is eliminated. -/
def driftOrc : Orc :=
  { plainOrc with phase := fun _ => false
                  stage := some { timeout := false, cycle := true, segment := true, victims := [], targets := [],
                                  cmds := [.subsume 5 1, .subsume 5 2, .elimVar 1], oom := false } }

/-- **The number of permanent clauses in the progress report underflows**: a run of `solve` after which `num_clause` is less than `num_learnt`, so that the last progress
report (src/solver/search.rs:165, src/state.rs:555) panics in a debug build and prints a number near 2^64 in a release build. The run ends a stage after one conflict, which
the code does after at least 32; the drift does not depend on it. -/
theorem C22_underflow : ∃ (F : Form) (x : Sol) (p : Pre) (os : List Orc) (vals : List Int) (y : Sol), Built F x ∧ solve {} p os noLow x = .sat vals y ∧
    y.db.numClause < y.db.numLearnt := by
  have key : (match solve {} plainPre (List.replicate 9 driftOrc) noLow (exSolver 4 exDrift) with
    | .sat _ y => decide (y.db.numClause < y.db.numLearnt)
    | _ => false) = true := by decide +kernel
  cases e : solve {} plainPre (List.replicate 9 driftOrc) noLow (exSolver 4 exDrift) with
  | sat vals y =>
    rw [e] at key
    exact ⟨_, _, _, _, vals, y, exBuilt (nv := 4) (cs := exDrift) (by decide +kernel), e, by simpa using key⟩
  | _ => rw [e] at key; simp at key

end Splr
