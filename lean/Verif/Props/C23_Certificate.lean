import Verif.Lemmas.Cert
/-! # C23: the certificate text is unambiguous -/
namespace Splr.Cert
open Text

/-- **C23.** For every sequence of recorded additions and (non-empty) deletions of literals that are non-zero `i32`s,
whatever its length (hence whatever the flush points), the closed file is read back as exactly that sequence
followed by the final empty clause that `close` writes. -/
theorem C23_roundtrip (rs : List Rec)
    (h : ∀ r ∈ rs, match r with
      | .add c => ∀ i ∈ c, i ≠ 0 ∧ IsI32 i
      | .del c => c ≠ [] ∧ ∀ i ∈ c, i ≠ 0 ∧ IsI32 i) :
    ∃ text, fileOf rs = some (some text) ∧ readProof text = some (rs ++ [.add []]) := by
  have hok : ∀ r ∈ rs, ok r := by
    intro r hr; have := h r hr; cases r <;> exact this
  obtain ⟨s, e, i⟩ := records_inv rs [] Store.new (by simp) hok ⟨[], [], rfl, rfl, rfl⟩
  simp only [List.nil_append] at i
  obtain ⟨s', e', hq, hb⟩ := dump_inv hok i
  have hbuf : ∃ b, s.buffer = some b := by obtain ⟨d, p, _, hb, _⟩ := i; exact ⟨_, hb⟩
  obtain ⟨b, hbuf⟩ := hbuf
  refine ⟨_, by simp only [fileOf, e, Option.bind_some, Store.close, hbuf, e', Option.map_some, hb]; rfl, ?_⟩
  have := readProof_text (rs ++ [.add []]) (by
    intro r hr; simp at hr; rcases hr with hr | rfl
    · exact hok r hr
    · simp [ok])
  simpa [recText, litsText] using this

example : (fileOf [.add [1, -2], .del [-12, 3], .add [7]]).map (·.map String.ofList)
    = some (some "1 -2 0\nd -12 3 0\n7 0\n0\n") := by decide +kernel

/-- Distinct histories give distinct files. -/
theorem C23_injective (rs rs' : List Rec)
    (h : ∀ r ∈ rs ++ rs', match r with
      | .add c => ∀ i ∈ c, i ≠ 0 ∧ IsI32 i
      | .del c => c ≠ [] ∧ ∀ i ∈ c, i ≠ 0 ∧ IsI32 i) (e : fileOf rs = fileOf rs') : rs = rs' := by
  obtain ⟨t, e1, r1⟩ := C23_roundtrip rs (fun r hr => h r (by simp [hr]))
  obtain ⟨t', e2, r2⟩ := C23_roundtrip rs' (fun r hr => h r (by simp [hr]))
  rw [e1, e2] at e
  cases e
  rw [r1] at r2
  simpa using r2

/-- The restriction to non-empty deletions is needed: the deletion of an empty clause is written like the addition
of the empty clause (the code never records it). -/
theorem C23_empty_deletion : fileOf [.del []] = fileOf [.add []] := by decide +kernel

end Splr.Cert
