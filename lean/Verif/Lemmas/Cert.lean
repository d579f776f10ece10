import Verif.Model.Cert
import Verif.Lemmas.Text
namespace Splr.Cert
open Text

/-- the text of the literals of a record -/
def litsText (c : List Int) : List Char := (c.flatMap fun i => showInt i ++ [' ']) ++ ['0']

def recText : Rec → List Char
  | .add c => litsText c
  | .del c => 'd' :: ' ' :: litsText c

def ok : Rec → Prop
  | .add c => ∀ i ∈ c, i ≠ 0 ∧ IsI32 i
  | .del c => c ≠ [] ∧ ∀ i ∈ c, i ≠ 0 ∧ IsI32 i

theorem showInt_zero : showInt 0 = ['0'] := by decide +kernel

theorem litsText_no_nl (c : List Int) : '\n' ∉ litsText c := by
  unfold litsText
  simp only [List.mem_append, List.mem_flatMap, List.mem_singleton, not_or, not_exists, not_and]
  refine ⟨fun i _ => ⟨fun h => numChar_ne_nl (showInt_numChar i _ h) rfl, by decide⟩, by decide⟩

theorem words_litsText (c : List Int) (tail : List Char) (ht : tail ≠ []) (htw : ∀ x ∈ tail, isWs x = true) :
    words (litsText c ++ tail) = c.map showInt ++ [['0']] := by
  unfold litsText
  induction c with
  | nil =>
    have := words_word ['0'] (by simp) (by decide) tail [] ht htw
    simpa [words] using this
  | cons i c ih =>
    simp only [List.flatMap_cons, List.append_assoc, List.map_cons, List.cons_append, List.nil_append] at ih ⊢
    have := words_word (showInt i) (showInt_ne_nil i) (fun x hx => numChar_not_ws (showInt_numChar i x hx)) [' ']
      ((c.flatMap fun i => showInt i ++ [' ']) ++ '0' :: tail) (by simp) (by decide)
    simp only [List.append_assoc, List.cons_append, List.nil_append] at this
    rw [this, ih]

theorem readLits_map (c : List Int) (h : ∀ i ∈ c, i ≠ 0 ∧ IsI32 i) :
    readLits (c.map showInt ++ [['0']]) = some c := by
  induction c with
  | nil => decide +kernel
  | cons i c ih =>
    have hi := h i (by simp)
    simp only [List.map_cons, List.cons_append, readLits, parseI32_showInt hi.2, if_neg hi.1]
    rw [ih (fun j hj => h j (by simp [hj]))]

theorem words_ne_d (c : List Int) : ∀ ws, c.map showInt ++ [['0']] ≠ ['d'] :: ws := by
  intro ws h
  cases c with
  | nil => simp at h
  | cons i c =>
    simp at h
    have := showInt_numChar i 'd' (by rw [h.1]; simp)
    rcases this with h | h
    · exact absurd h (by decide)
    · exact absurd h (by decide)

theorem readRec_add (line : List Char) (h : ∀ ws, words line ≠ ['d'] :: ws) :
    readRec line = (readLits (words line)).map .add := by
  unfold readRec
  split
  · rename_i ws e; exact absurd e (h ws)
  · rfl

theorem readRec_recText (r : Rec) (h : ok r) : readRec (recText r ++ ['\n']) = some r := by
  cases r with
  | add c =>
    have hw := words_litsText c ['\n'] (by simp) (by decide)
    rw [recText, readRec_add _ (by rw [hw]; exact words_ne_d c), hw, readLits_map c h]; rfl
  | del c =>
    have hw := words_litsText c ['\n'] (by simp) (by decide)
    have := words_word ['d'] (by simp) (by decide) [' '] (litsText c ++ ['\n']) (by simp) (by decide)
    simp only [List.cons_append, List.nil_append] at this
    unfold readRec
    simp only [recText, List.cons_append, this, hw, readLits_map c h.2]
    rfl

theorem recText_no_nl (r : Rec) : '\n' ∉ recText r := by
  cases r with
  | add c => exact litsText_no_nl c
  | del c => simp [recText]; exact litsText_no_nl c

theorem readProof_text (rs : List Rec) (h : ∀ r ∈ rs, ok r) :
    readProof (rs.flatMap fun r => recText r ++ ['\n']) = some rs := by
  unfold readProof
  induction rs with
  | nil => simp [readLines]
  | cons r rs ih =>
    have := readLines_append (recText r) (recText_no_nl r) (rs.flatMap fun r => recText r ++ ['\n'])
    simp only [List.flatMap_cons, List.append_assoc, List.cons_append, List.nil_append] at this ⊢
    rw [this, List.mapM_cons, readRec_recText r (h r (by simp))]
    simp only [Option.bind_eq_bind, Option.bind_some]
    rw [ih (fun r' hr' => h r' (by simp [hr']))]
    rfl

/-- the queue encoding of a record -/
def enc : Rec → List Int
  | .add c => (c.length : Int) :: c
  | .del c => (-(c.length : Int)) :: c

theorem dumpText_enc (r : Rec) (h : ok r) (q : List Int) :
    dumpText (enc r ++ q) = (dumpText q).map fun t => recText r ++ '\n' :: t := by
  cases r with
  | add c =>
    simp only [enc, List.cons_append]
    rw [dumpText]
    have e : (c.length : Int).natAbs = c.length := by simp
    have hlt : ¬ (c ++ q).length < (c.length : Int).natAbs := by rw [e]; simp
    rw [if_neg hlt, e]
    rw [List.drop_left, List.take_left]
    have : ¬ ((c.length : Int) < 0) := by omega
    cases dumpText q with
    | none => rfl
    | some t => simp [recText, litsText, this]
  | del c =>
    simp only [enc, List.cons_append]
    rw [dumpText]
    have e : (-(c.length : Int)).natAbs = c.length := by simp
    have hlt : ¬ (c ++ q).length < (-(c.length : Int)).natAbs := by rw [e]; simp
    rw [if_neg hlt, e]
    rw [List.drop_left, List.take_left]
    have hp : 0 < c.length := List.length_pos_iff.2 h.1
    have : (-(c.length : Int) < 0) := by omega
    cases dumpText q with
    | none => rfl
    | some t =>
      simp only [Option.map_some, recText, litsText, if_pos this]
      simp

theorem dumpText_encs (rs : List Rec) (h : ∀ r ∈ rs, ok r) :
    dumpText (rs.flatMap enc) = some (rs.flatMap fun r => recText r ++ ['\n']) := by
  induction rs with
  | nil => simp [dumpText]
  | cons r rs ih =>
    rw [List.flatMap_cons, dumpText_enc r (h r (by simp)), ih (fun r' hr' => h r' (by simp [hr']))]
    simp

/-- Invariant: file contents followed by the pending records is the text of everything recorded. -/
def Inv (done : List Rec) (s : Store) : Prop :=
  ∃ d p, done = d ++ p ∧ s.buffer = some (d.flatMap fun r => recText r ++ ['\n']) ∧ s.queue = p.flatMap enc

theorem dump_inv {done s} (hok : ∀ r ∈ done, ok r) (h : Inv done s) :
    ∃ s', s.dump = some s' ∧ s'.queue = [] ∧ s'.buffer = some (done.flatMap fun r => recText r ++ ['\n']) := by
  obtain ⟨d, p, rfl, hb, hq⟩ := h
  have := dumpText_encs p (fun r hr => hok r (by simp [hr]))
  refine ⟨_, by simp [Store.dump, hb, hq, this]; rfl, rfl, by simp⟩

theorem record_inv {done s} (r : Rec) (hok : ∀ r ∈ done, ok r) (hr : ok r) (h : Inv done s) :
    ∃ s', s.record r = some s' ∧ Inv (done ++ [r]) s' := by
  have key : ∀ s1 : Store, s1.buffer = s.buffer → s1.queue = s.queue ++ enc r →
      ∃ s', (if dumpInterval < s1.queue.length then s1.dump else some s1) = some s' ∧ Inv (done ++ [r]) s' := by
    intro s1 e1 e2
    have i1 : Inv (done ++ [r]) s1 := by
      obtain ⟨d, p, rfl, hb, hq⟩ := h
      exact ⟨d, p ++ [r], by simp, by rw [e1, hb], by rw [e2, hq]; simp⟩
    split
    · obtain ⟨s', e, hq, hb⟩ := dump_inv (by
        intro x hx; simp at hx; rcases hx with hx | rfl
        · exact hok x hx
        · exact hr) i1
      exact ⟨s', e, done ++ [r], [], by simp, hb, by simp [hq]⟩
    · exact ⟨s1, rfl, i1⟩
  cases r with
  | add c => exact key _ rfl rfl
  | del c => exact key _ rfl rfl

theorem records_inv (rs : List Rec) : ∀ done s, (∀ r ∈ done, ok r) → (∀ r ∈ rs, ok r) → Inv done s →
    ∃ s', rs.foldlM Store.record s = some s' ∧ Inv (done ++ rs) s' := by
  induction rs with
  | nil => intro done s _ _ h; exact ⟨s, rfl, by simpa using h⟩
  | cons r rs ih =>
    intro done s hd hr h
    obtain ⟨s1, e1, i1⟩ := record_inv r hd (hr r (by simp)) h
    obtain ⟨s2, e2, i2⟩ := ih (done ++ [r]) s1 (by
      intro x hx; simp at hx; rcases hx with hx | rfl
      · exact hd x hx
      · exact hr x (by simp)) (fun x hx => hr x (by simp [hx])) i1
    exact ⟨s2, by simp [List.foldlM_cons, e1, e2], by simpa using i2⟩

end Splr.Cert
