import Verif.Props.C77_Whole
/-!
# C77: a run in which a stage ends (a case for `C77_schedule`)
-/
namespace Splr
open Stage LubySpec

/-- Six pigeons, five holes. -/
def exHoles : List (List Int) :=
  [[1, 2, 3, 4, 5], [6, 7, 8, 9, 10], [11, 12, 13, 14, 15], [16, 17, 18, 19, 20], [21, 22, 23, 24, 25], [26, 27, 28, 29, 30], [-6, -1], [-11, -1], [-11,
   -6], [-16, -1], [-16, -6], [-16, -11], [-21, -1], [-21, -6], [-21, -11], [-21, -16], [-26, -1], [-26, -6], [-26, -11], [-26, -16], [-26, -21], [-7,
   -2], [-12, -2], [-12, -7], [-17, -2], [-17, -7], [-17, -12], [-22, -2], [-22, -7], [-22, -12], [-22, -17], [-27, -2], [-27, -7], [-27, -12], [-27,
   -17], [-27, -22], [-8, -3], [-13, -3], [-13, -8], [-18, -3], [-18, -8], [-18, -13], [-23, -3], [-23, -8], [-23, -13], [-23, -18], [-28, -3], [-28,
   -8], [-28, -13], [-28, -18], [-28, -23], [-9, -4], [-14, -4], [-14, -9], [-19, -4], [-19, -9], [-19, -14], [-24, -4], [-24, -9], [-24, -14], [-24,
   -19], [-29, -4], [-29, -9], [-29, -14], [-29, -19], [-29, -24], [-10, -5], [-15, -5], [-15, -10], [-20, -5], [-20, -10], [-20, -15], [-25, -5], [-25,
   -10], [-25, -15], [-25, -20], [-30, -5], [-30, -10], [-30, -15], [-30, -20], [-30, -25]]

/-- After 65 iterations 32 conflicts have counted and the first stage has ended: the clauses were vivified once. -/
example : (match loopW exCfgW (List.replicate 65 exTickW) (exSolver 30 exHoles, 0, (StageManager.new 32).initialize 32, ⟨0, 0⟩) with
    | .ok z => decide (z.2.2.2.vivs = ones 1) | _ => false) = true := by decide +kernel

end Splr
