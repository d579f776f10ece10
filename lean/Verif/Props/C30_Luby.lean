import Verif.Lemmas.Luby
/-!
# C30: the Luby generator yields the Luby sequence
-/
namespace Splr.Luby
open LubySpec

/-- After any history of `next`/`reset` calls on a fresh generator, no call panics, and the following call
returns element `m + 1` of the Luby sequence (counted from 0), `m` being the number of calls since the last
reset. (The generator drops element 0, as its doc comment and unit test show: 1, 2, 1, 1, 2, 4, ...) -/
theorem C30_luby (ops : List Op) :
    ∃ vs s v s', run .default ops = some (vs, s) ∧ s.next = some (v, s') ∧
      IsLuby (sinceReset 0 ops + 1) v := by
  obtain ⟨vs, s, e, hi, hidx, _⟩ := run_inv ops .default inv_default
  obtain ⟨v, s', e2, _, _, hl, _⟩ := next_spec s hi
  refine ⟨vs, s, v, s', e, e2, ?_⟩
  rw [hidx] at hl; exact hl

/-- `max_value` is the maximum of 1 and of all values produced so far (resets included). -/
theorem C30_max (ops : List Op) :
    ∃ vs s, run .default ops = some (vs, s) ∧ s.maxValue = vs.foldl max 1 := by
  obtain ⟨vs, s, e, _, _, hm⟩ := run_inv ops .default inv_default
  exact ⟨vs, s, e, hm⟩

/-- The specification determines the value. -/
theorem C30_unique {k x y : Nat} (hx : IsLuby k x) (hy : IsLuby k y) : x = y := isLuby_unique hx hy

example : (run .default [.next, .next, .next, .next, .next, .next, .reset, .next]).map (·.1)
    = some [1, 2, 1, 1, 2, 4, 1] := by decide +kernel

end Splr.Luby
