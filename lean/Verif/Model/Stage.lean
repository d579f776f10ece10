import Verif.Model.Luby
/-!
# src/solver/stage.rs and the stage loop of src/solver/search.rs
-/
namespace Splr.Stage
open Luby

/-- src/solver/stage.rs:8-21 `struct StageManager`. -/
structure StageManager where
  cycle : Nat
  stage : Nat
  segment : Nat
  unitSize : Nat
  luby : LubySeries
  maxScaleOfSegment : Nat
  scale : Nat
  endOfStage : Nat
  nextIsNewSegment : Bool
  cycleStartingStage : Nat
  segmentStartingStage : Nat
  segmentStartingCycle : Nat
deriving DecidableEq, Repr

/-- src/solver/stage.rs:23-36 `instantiate` (and 39-54 `new`): `unit` is the computed unit size.
(`derive(Default)` of `LubySeries` is its hand-written `Default`, luby.rs:11-20.) -/
def StageManager.new (unit : Nat) : StageManager :=
  ⟨0, 0, 0, unit, .default, 1, 1, unit, false, 0, 0, 0⟩

/-- src/solver/stage.rs:55-62 `initialize`. The Luby iterator is *not* reset. -/
def StageManager.initialize (m : StageManager) (unit : Nat) : StageManager :=
  { m with cycle := 0, unitSize := unit, scale := 1, maxScaleOfSegment := 1, endOfStage := unit,
           nextIsNewSegment := true }

/-- src/solver/stage.rs:105-107 `current_span`. -/
def StageManager.span (m : StageManager) : Nat := m.cycle * m.unitSize

/-- src/solver/stage.rs:74-98 `prepare_new_stage`; `none` = panic inside the Luby iterator. -/
def StageManager.prepare (m : StageManager) (now : Nat) : Option (Option Bool × StageManager) :=
  match m.luby.next with
  | none => none
  | some (v, l) =>
    let m := { m with scale := v, luby := l, stage := m.stage + 1 }
    let newCycle := decide (m.scale = 1)
    let newSegment := newCycle && m.nextIsNewSegment
    let m := if newCycle then { m with cycle := m.cycle + 1, cycleStartingStage := m.stage } else m
    let m := if newSegment then
        { m with segment := m.segment + 1, maxScaleOfSegment := m.maxScaleOfSegment * 2,
                 nextIsNewSegment := false, segmentStartingStage := m.stage,
                 segmentStartingCycle := m.cycle }
      else m
    let m := if m.maxScaleOfSegment = m.scale then { m with nextIsNewSegment := true } else m
    let m := { m with endOfStage := now + m.span }
    some (if newCycle then some newSegment else none, m)

/-- src/solver/stage.rs:99-101 `stage_ended`. -/
def StageManager.ended (m : StageManager) (now : Nat) : Bool := m.endOfStage == now

/-- The stage-related part of one conflict in the main loop, src/solver/search.rs:251-272: the number of
learnt clauses is incremented if `grows` (search.rs:251-253), and when the stage has ended a new one is
prepared. State: counter and manager; the log receives `(now, flag)` of each stage change, oldest first. -/
def conflict (st : Nat × StageManager × List (Nat × Option Bool)) (grows : Bool) :
    Option (Nat × StageManager × List (Nat × Option Bool)) :=
  let (n, m, log) := st
  let n := if grows then n + 1 else n
  if m.ended n then
    match m.prepare n with
    | none => none
    | some (flag, m) => some (n, m, log ++ [(n, flag)])
  else some (n, m, log)

/-- A whole search: `search` starts with `num_learnt = 0` and `initialize(32)` (search.rs:229-236). -/
def runSearch (m : StageManager) (unit : Nat) (conflicts : List Bool) :
    Option (Nat × StageManager × List (Nat × Option Bool)) :=
  conflicts.foldl (fun st g => st.bind (conflict · g)) (some (0, m.initialize unit, []))

end Splr.Stage
