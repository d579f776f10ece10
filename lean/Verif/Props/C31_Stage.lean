import Verif.Lemmas.Stage
/-!
# C31: stages end and nest properly
-/
namespace Splr.Stage
open Luby LubySpec

/-- First search on a solver (fresh Luby iterator), any positive unit size, any sequence of conflicts
(each either increases the number of learnt clauses or not): the run never panics, stage `i` ends exactly
when the number of learnt clauses reaches `ends unit i`, no end is ever skipped, and the `i`-th change is
classified (new cycle / new segment / neither) exactly as the Luby sequence prescribes. -/
theorem C31_schedule_first_search_partial (u0 unit : Nat) (hu : 0 < unit) (conflicts : List Bool) :
    ∃ n m log, runSearch (StageManager.new u0) unit conflicts = some (n, m, log) ∧
      n = conflicts.count true ∧
      m.endOfStage = ends unit log.length ∧
      (∀ i, i < log.length ↔ ends unit i ≤ n) ∧
      (∀ i, i < log.length → log[i]? = some (ends unit i, stageFlag (i + 1))) := by
  have hi : LoopInv unit (0, (StageManager.new u0).initialize unit, []) :=
    ⟨sched_init u0 unit, by simpa [ends] using hu, by intro i hi; simp at hi⟩
  obtain ⟨⟨n, m, log⟩, e, ⟨hs, hn, hl⟩, hc⟩ := loop_run unit hu conflicts _ hi
  refine ⟨n, m, log, e, by simpa using hc, hs.fin, ?_, fun i h => (hl i h).2⟩
  intro i
  constructor
  · intro h; exact (hl i h).1
  · intro h
    rcases Nat.lt_or_ge i log.length with hlt | hge
    · exact hlt
    · have := ends_mono unit hu hge
      simp only at hn; omega

/-- Stages are non-empty and each one ends: the schedule is strictly increasing. -/
theorem C31_positive (unit i : Nat) (hu : 0 < unit) : ends unit i < ends unit (i + 1) := ends_lt unit i hu

example : (runSearch (StageManager.new 5) 32 (List.replicate 100 true)).map (fun r => (r.1, r.2.2))
    = some (100, [(32, some true), (64, none), (96, some true)]) := by decide +kernel

/-- The claim is **false** for a later search on the same manager (a second `solve()`): `initialize` resets the
cycle number but not the Luby iterator. After a first search with one finished stage, a second search in which every
conflict adds a learnt clause ends its first stage, gets a stage of length 0 and never ends a stage again. -/
theorem C31_second_search_stuck :
    ∃ n m log, runSearch (StageManager.new 5) 32 (List.replicate 32 true) = some (n, m, log) ∧
      ∀ N, ∃ m' log', runSearch m 32 (List.replicate (33 + N) true) = some (33 + N, m', log') ∧ log'.length = 1 := by
  refine ⟨_, _, _, (by decide +kernel : runSearch (StageManager.new 5) 32 (List.replicate 32 true)
    = some (32, ⟨1, 1, 1, 32, ⟨1, 0, 1, 1⟩, 2, 1, 64, false, 1, 1, 1⟩, [(32, some true)])), ?_⟩
  intro N
  refine ⟨⟨0, 2, 1, 32, ⟨2, 0, 1, 2⟩, 1, 2, 32, true, 1, 1, 1⟩, [(32, none)], ?_, rfl⟩
  have h33 : runSearch ⟨1, 1, 1, 32, ⟨1, 0, 1, 1⟩, 2, 1, 64, false, 1, 1, 1⟩ 32 (List.replicate 33 true)
      = some (33, ⟨0, 2, 1, 32, ⟨2, 0, 1, 2⟩, 1, 2, 32, true, 1, 1, 1⟩, [(32, none)]) := by decide +kernel
  unfold runSearch at h33 ⊢
  rw [← List.replicate_append_replicate, List.foldl_append, h33]
  exact stuck_run _ _ N 33 (by decide)

end Splr.Stage
