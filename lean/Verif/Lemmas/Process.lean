import Verif.Model.Process
import Mathlib.Data.List.Basic
/-! The interleavings of `splr` and its timer. -/
namespace Splr.Process

def Act.status? : Act → Option Status
  | .print i => i.status?
  | _ => none

def Act.chars : Act → List Char
  | .write t => t
  | _ => []

/-- The main thread prints no part of the answer and no timeout itself, and writes nothing before the file is there. -/
structure Tidy (acts : List Act) : Prop where
  noText : ∀ t, .print (.text t) ∉ acts
  noTime : .print .timeOut ∉ acts
  create : acts.Pairwise fun a b => b = .create → a.chars = []
  exit : acts.Pairwise fun a _ => ∀ n, a ≠ .exit n

theorem statuses_append (a b : List Item) : statuses (a ++ b) = statuses a ++ statuses b := List.filterMap_append
theorem texts_append (a b : List Item) : texts (a ++ b) = texts a ++ texts b := List.flatMap_append

structure Inv (acts done : List Act) (tm : Timer) (p : Proc) : Prop where
  split : acts = done ++ p.todo
  status : statuses p.out = done.filterMap Act.status?
  text : p.seen ++ p.buf = done.flatMap Act.chars
  closed : ∀ d, (done = d ++ [.close] ∨ ∃ n, done = d ++ [.close, .exit n]) → p.buf = []
  code : ∀ n, p.code = some n → (∃ d, done = d ++ [.exit n]) ∨ n = 0 ∧ p.timer = .printed
  time : p.out.count .timeOut = if p.timer = .printed then 1 else 0
  timer : tm = .off → p.timer = .off

theorem spill_seen (p : Proc) (k : Nat) : (p.spill k).seen ++ (p.spill k).buf = p.seen ++ p.buf ∧ statuses (p.spill k).out = statuses p.out ∧
    (p.spill k).out.count .timeOut = p.out.count .timeOut ∧ (p.spill k).todo = p.todo ∧ (p.spill k).timer = p.timer ∧ (p.spill k).code = p.code ∧
    (p.spill k).buf = p.buf.drop k := by
  unfold Proc.spill
  split
  · rename_i h
    refine ⟨rfl, rfl, rfl, rfl, rfl, rfl, ?_⟩
    rcases List.take_eq_nil_iff.1 h with h | h <;> simp [h]
  · split
    · rename_i h
      refine ⟨?_, ?_, ?_, rfl, rfl, rfl, rfl⟩
      · unfold Proc.seen; simp only [h, cond_true, texts_append, List.append_assoc]
        congr 1
        simp [texts, Item.chars]
      · simp [statuses, Item.status?]
      · simp [List.count_append]
    · rename_i h
      refine ⟨?_, rfl, rfl, rfl, rfl, rfl, rfl⟩
      unfold Proc.seen; simp [h]

theorem inv_step {acts done : List Act} {tm : Timer} {p : Proc} (ht : Tidy acts) (h : Inv acts done tm p) (e : Ev) : ∃ done', Inv acts done' tm (p.step e) := by
  cases e with
  | spill k =>
    refine ⟨done, ?_⟩
    rw [Proc.step]
    split
    · exact h
    · obtain ⟨a1, a2, a3, a4, a5, a6, a7⟩ := spill_seen p k
      exact ⟨by rw [a4]; exact h.split, by rw [a2]; exact h.status, by rw [a1]; exact h.text, fun d hd => by rw [a7, h.closed d hd]; simp,
        fun n hn => by rw [a5]; exact h.code n (a6 ▸ hn), by rw [a3, a5]; exact h.time, fun ho => by rw [a5]; exact h.timer ho⟩
  | timer =>
    refine ⟨done, ?_⟩
    rw [Proc.step]
    split
    · exact h
    · split
      · exact h
      · rename_i hc _ hm
        refine ⟨h.split, ?_, ?_, h.closed, fun n hn => ?_, ?_, fun ho => ?_⟩
        · rw [← h.status]; simp [statuses, Item.status?]
        · rw [← h.text]; unfold Proc.seen; cases p.stdout
          · rfl
          · simp [texts, Item.chars]
        · simp only [] at hn; rw [hn] at hc; simp at hc
        · have := h.time; rw [hm] at this
          simpa [List.count_append] using this
        · have := h.timer ho; rw [hm] at this; simp at this
      · rename_i hc hm
        exact ⟨h.split, h.status, h.text, h.closed, fun n hn => .inr ⟨by simpa using hn.symm, hm⟩, h.time, h.timer⟩
  | main =>
    rw [Proc.step]
    split
    · exact ⟨done, h⟩
    · rename_i hc
      have hcode : ∀ n, p.code ≠ some n := fun n e => by rw [e] at hc; simp at hc
      split
      · exact ⟨done, h⟩
      · rename_i a rest hr
        have hs : acts = (done ++ [a]) ++ rest := by rw [h.split, hr]; simp
        refine ⟨done ++ [a], ?_⟩
        have hcl : a ≠ .close → (∀ n, a ≠ .exit n) → ∀ d, ¬ (done ++ [a] = d ++ [.close] ∨ ∃ n, done ++ [a] = d ++ [.close, .exit n]) := by
          rintro h1 h2 d (e | ⟨n, e⟩)
          · have := List.append_inj_right' e (by simp); simp at this; exact h1 this
          · have : done ++ [a] = (d ++ [.close]) ++ [.exit n] := by simpa using e
            have := List.append_inj_right' this (by simp); simp at this; exact h2 n this
        cases a with
        | print i =>
          have h1 : i.chars = [] := by
            cases i with
            | text t => exact absurd (by rw [hs]; simp) (ht.noText t)
            | _ => rfl
          have h2 : i ≠ .timeOut := by rintro rfl; exact absurd (by rw [hs]; simp) ht.noTime
          refine ⟨hs, ?_, ?_, fun d hd => absurd hd (hcl (by simp) (by simp) d), fun n hn => absurd hn (hcode n), ?_, h.timer⟩
          · simp only [Proc.perform]
            rw [statuses_append, h.status, List.filterMap_append]; rfl
          · rw [List.flatMap_append, ← h.text]
            simp only [Proc.perform, Proc.seen, texts_append]
            cases p.stdout <;> simp [texts, h1, Act.chars]
          · simp only [Proc.perform]
            rw [List.count_append, h.time, List.count_eq_zero_of_not_mem (by simpa using Ne.symm h2)]; rfl
        | create =>
          have h0 : done.flatMap Act.chars = [] := by
            have := ht.create
            rw [hs, List.append_assoc, List.pairwise_append] at this
            exact List.flatMap_eq_nil_iff.2 fun a ha => this.2.2 a ha .create (by simp) rfl
          rw [← h.text, List.append_eq_nil_iff] at h0
          refine ⟨hs, ?_, ?_, fun d hd => absurd hd (hcl (by simp) (by simp) d), fun n hn => absurd hn (hcode n), h.time, h.timer⟩
          · rw [List.filterMap_append, ← h.status]; simp [Proc.perform, Act.status?]
          · rw [List.flatMap_append, ← h.text, h0.1, h0.2]
            have := h0.1
            simp only [Proc.perform, Proc.seen] at this ⊢
            cases hst : p.stdout with
            | true => rw [hst] at this; simp only [cond_true] at this ⊢; rw [this]; rfl
            | false => rfl
        | write t =>
          refine ⟨hs, ?_, ?_, fun d hd => absurd hd (hcl (by simp) (by simp) d), fun n hn => absurd hn (hcode n), h.time, h.timer⟩
          · rw [List.filterMap_append, ← h.status]; simp [Proc.perform, Act.status?]
          · rw [List.flatMap_append, ← h.text]; simp [Proc.perform, Proc.seen, Act.chars]
        | close =>
          obtain ⟨a1, a2, a3, a4, a5, a6, a7⟩ := spill_seen { p with todo := rest } p.buf.length
          simp only [Proc.perform]
          refine ⟨by rw [a4]; exact hs, by rw [a2, List.filterMap_append, ← h.status]; simp [Act.status?], ?_, fun d _ => by rw [a7]; simp, fun n hn => ?_, ?_, fun ho => ?_⟩
          · rw [a1, List.flatMap_append, ← h.text]; simp [Act.chars, Proc.seen]
          · rw [a6] at hn; exact absurd hn (hcode n)
          · rw [a3, a5]; exact h.time
          · rw [a5]; exact h.timer ho
        | exit n =>
          refine ⟨hs, ?_, ?_, fun d hd => ?_, fun m hm => ?_, h.time, h.timer⟩
          · rw [List.filterMap_append, ← h.status]; simp [Proc.perform, Act.status?]
          · rw [List.flatMap_append, ← h.text]; simp [Proc.perform, Proc.seen, Act.chars]
          · simp only [Proc.perform]
            rcases hd with e | ⟨m, e⟩
            · have := List.append_inj_right' e (by simp); simp at this
            · have : done ++ [Act.exit n] = (d ++ [.close]) ++ [.exit m] := by simpa using e
              exact h.closed d (.inl (List.append_inj_left' this (by simp)))
          · simp only [Proc.perform, Option.some.injEq] at hm
            subst hm
            exact .inl ⟨done, rfl⟩

theorem inv_run {acts : List Act} {tm : Timer} (ht : Tidy acts) : ∀ (es : List Ev) {done : List Act} {p : Proc}, Inv acts done tm p → ∃ done', Inv acts done' tm (p.run es)
  | [], done, p, h => ⟨done, h⟩
  | e :: es, _, _, h => by
    obtain ⟨d, h'⟩ := inv_step ht h e
    exact inv_run ht es h'

theorem inv_start (o : Setup) (val : Option (List Char)) (acts : List Act) : Inv acts [] (Proc.start o val acts).timer (Proc.start o val acts) where
  split := rfl
  status := rfl
  text := by unfold Proc.seen Proc.start; simp [texts]
  closed := by intro d _; rfl
  code := by intro n hn; simp [Proc.start] at hn
  time := by simp only [Proc.start]; split <;> simp_all
  timer := id

end Splr.Process
