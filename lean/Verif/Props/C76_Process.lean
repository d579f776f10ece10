import Verif.Lemmas.Process
import Verif.Props.C34_C46_Main
/-!
# C76: the process `splr` with its timer, at any moment

`Proc.run (Proc.start o val acts) es` is the process after the events `es`: steps of the main thread, of the timer thread (started if
SPLR_TIMEOUT is set), transfers from the buffer. All schedules `es` are possible; a crash is the end of `es`.
-/
namespace Splr.Process
open Dimacs

/-- The exit code that goes with an answer. -/
def codeOf : Status → Nat
  | .sat => 10
  | .unsat => 20
  | .unknown => 0

theorem replicate_status (n : Nat) : (List.replicate n (Act.print Item.other)).filterMap Act.status? = [] := by
  rw [List.filterMap_eq_nil_iff]; intro a ha; rw [List.eq_of_mem_replicate ha]; rfl

theorem replicate_chars (n : Nat) : (List.replicate n (Act.print Item.other)).flatMap Act.chars = [] := by
  rw [List.flatMap_eq_nil_iff]; intro a ha; rw [List.eq_of_mem_replicate ha]; rfl

theorem write_status (ts : List (List Char)) : (ts.map Act.write).filterMap Act.status? = [] := by
  rw [List.filterMap_eq_nil_iff]; intro a ha
  obtain ⟨t, -, rfl⟩ := List.mem_map.1 ha; rfl

theorem write_chars (ts : List (List Char)) : (ts.map Act.write).flatMap Act.chars = ts.flatten := by
  induction ts with
  | nil => rfl
  | cons t ts ih => rw [List.map_cons, List.flatMap_cons, ih]; rfl

/-- What the main thread does after the problem was loaded. -/
def finish (o : Setup) (r : Status) (ts : List (List Char)) : List Act := List.replicate o.chatter (.print .other) ++ saveActs o r ts (codeOf r)

theorem finish_eq (o : Setup) (r : Status) (ts : List (List Char)) : ∃ A, finish o r ts = A ++ [.close, .exit (codeOf r)] ∧ ∀ a ∈ A, ∀ n, a ≠ .exit n := by
  refine ⟨List.replicate o.chatter (.print .other) ++ ((if o.stdout then [] else [.create]) ++ List.replicate o.notes (.print .other) ++ [.print (.status r)] ++ ts.map .write),
    by simp [finish, saveActs], ?_⟩
  intro a ha n e
  subst e
  simp only [List.mem_append, List.mem_cons, List.not_mem_nil, or_false, List.mem_map, List.mem_replicate] at ha
  rcases ha with ha | (((ha | ha) | ha) | ⟨t, -, ha⟩)
  · simp at ha
  · split at ha <;> simp at ha
  · simp at ha
  · simp at ha
  · simp at ha

theorem finish_status (o : Setup) (r : Status) (ts : List (List Char)) : (finish o r ts).filterMap Act.status? = [r] := by
  unfold finish saveActs
  simp only [List.filterMap_append, replicate_status, write_status]
  cases o.stdout <;> rfl

theorem finish_chars (o : Setup) (r : Status) (ts : List (List Char)) : (finish o r ts).flatMap Act.chars = ts.flatten := by
  unfold finish saveActs
  simp only [List.flatMap_append, replicate_chars, write_chars]
  cases o.stdout <;> simp [Act.chars]

theorem finish_tidy (o : Setup) (r : Status) (ts : List (List Char)) : Tidy (finish o r ts) := by
  have h0 : ∀ a ∈ List.replicate o.chatter (Act.print Item.other), a = .print .other := fun a ha => List.eq_of_mem_replicate ha
  have h1 : ∀ a ∈ List.replicate o.notes (Act.print Item.other), a = .print .other := fun a ha => List.eq_of_mem_replicate ha
  have h2 : ∀ a ∈ ts.map Act.write, ∃ t, a = .write t := fun a ha => by obtain ⟨t, -, rfl⟩ := List.mem_map.1 ha; exact ⟨t, rfl⟩
  have key : ∀ a ∈ finish o r ts, a = .print .other ∨ a = .create ∨ a = .print (.status r) ∨ (∃ t, a = .write t) ∨ a = .close ∨ a = .exit (codeOf r) := by
    intro a ha
    unfold finish saveActs at ha
    simp only [List.mem_append, List.mem_cons, List.not_mem_nil, or_false] at ha
    rcases ha with ha | (((ha | ha) | ha) | ha) | ha | ha
    · exact .inl (h0 a ha)
    · split at ha
      · simp at ha
      · simp at ha; exact .inr (.inl ha)
    · exact .inl (h1 a ha)
    · exact .inr (.inr (.inl ha))
    · exact .inr (.inr (.inr (.inl (h2 a ha))))
    · exact .inr (.inr (.inr (.inr (.inl ha))))
    · exact .inr (.inr (.inr (.inr (.inr ha))))
  refine ⟨fun t ht => ?_, fun ht => ?_, ?_, ?_⟩
  · have := key _ ht; simp at this
  · have := key _ ht; simp at this
  · unfold finish saveActs
    have e : List.replicate o.chatter (Act.print Item.other) ++ ((if o.stdout = true then [] else [Act.create]) ++ List.replicate o.notes (.print .other) ++
        [.print (.status r)] ++ ts.map .write ++ [.close, .exit (codeOf r)]) =
        (List.replicate o.chatter (Act.print Item.other) ++ (if o.stdout = true then [] else [Act.create])) ++ (List.replicate o.notes (.print .other) ++
        ([.print (.status r)] ++ (ts.map .write ++ [.close, .exit (codeOf r)]))) := by simp
    rw [e, List.pairwise_append]
    have hA : ∀ a ∈ List.replicate o.chatter (Act.print Item.other) ++ (if o.stdout = true then [] else [Act.create]), a.chars = [] := by
      intro a ha
      rcases List.mem_append.1 ha with ha | ha
      · rw [h0 a ha]; rfl
      · split at ha
        · simp at ha
        · simp at ha; subst ha; rfl
    have hB : ∀ b ∈ List.replicate o.notes (Act.print Item.other) ++ ([.print (.status r)] ++ (ts.map .write ++ [.close, .exit (codeOf r)])), b ≠ .create := by
      intro b hb
      simp only [List.mem_append, List.mem_cons, List.not_mem_nil, or_false] at hb
      rcases hb with hb | hb | hb | hb | hb
      · rw [h1 b hb]; simp
      · rw [hb]; simp
      · obtain ⟨t, rfl⟩ := h2 b hb; simp
      · rw [hb]; simp
      · rw [hb]; simp
    refine ⟨List.Pairwise.imp_of_mem (R := fun _ _ => True) (fun {a b} ha _ _ _ => hA a ha) (List.pairwise_of_forall fun _ _ => trivial),
      List.Pairwise.imp_of_mem (R := fun _ _ => True) (fun {a b} _ hb _ hc => absurd hc (hB b hb)) (List.pairwise_of_forall fun _ _ => trivial),
      fun a ha b _ _ => hA a ha⟩
  · obtain ⟨A, hA, hx⟩ := finish_eq o r ts
    have e : finish o r ts = (A ++ [.close]) ++ [.exit (codeOf r)] := by rw [hA]; simp
    rw [e, List.pairwise_append]
    have hne : ∀ a ∈ A ++ [Act.close], ∀ n, a ≠ .exit n := by
      rintro a ha n rfl
      rcases List.mem_append.1 ha with ha | ha
      · exact hx _ ha n rfl
      · simp at ha
    refine ⟨List.Pairwise.imp_of_mem (R := fun _ _ => True) (fun {a b} ha _ _ => hne a ha) (List.pairwise_of_forall fun _ _ => trivial), List.pairwise_singleton _ _,
      fun a ha _ _ => hne a ha⟩

/-- What the main thread does, and what `splr` gives without a timer (C46). -/
theorem shape (o : Setup) (cfg : Cfg) (p : Pre) (os : List Orc) (low : Nat → Bool) (report : List (List Char)) (text : List Char) :
    (∃ r ts, mainActs o cfg p os low report text = finish o r ts ∧ splrMain cfg p os low report text = some (codeOf r, some ts.flatten)) ∨
    (mainActs o cfg p os low report text = [.print (.status .unsat), .exit 20] ∧ splrMain cfg p os low report text = some (20, none)) ∨
    (mainActs o cfg p os low report text = [.exit 101]) ∨
    (mainActs o cfg p os low report text = List.replicate o.chatter (.print .other)) := by
  unfold mainActs splrMain
  cases Sol.load text with
  | emptyClause => exact .inr (.inl ⟨rfl, rfl⟩)
  | failed => exact .inr (.inr (.inl rfl))
  | ok x =>
    simp only []
    cases (solve cfg p os low x).verdict with
    | sat v =>
      refine .inl ⟨.sat, pieces report (.sat v), rfl, ?_⟩
      simp only [pieces, answerText, List.flatten_append, List.flatMap_def]
      rfl
    | unsat =>
      refine .inl ⟨.unsat, pieces report .unsat, rfl, ?_⟩
      simp only [pieces, statusText, List.flatten_append, List.flatMap_def]
      rw [List.append_assoc]; rfl
    | error e =>
      refine .inl ⟨.unknown, pieces report (.error e), rfl, ?_⟩
      simp only [pieces, statusText, List.flatten_append, List.flatMap_def]
      rw [List.append_assoc]; rfl
    | none => exact .inr (.inr (.inr (by simp)))

theorem main_tidy (o : Setup) (cfg : Cfg) (p : Pre) (os : List Orc) (low : Nat → Bool) (report : List (List Char)) (text : List Char) :
    Tidy (mainActs o cfg p os low report text) := by
  rcases shape o cfg p os low report text with ⟨r, ts, e, -⟩ | ⟨e, -⟩ | e | e
  · rw [e]; exact finish_tidy o r ts
  · rw [e]; exact ⟨by simp, by simp, by simp [Act.chars], by simp⟩
  · rw [e]; exact ⟨by simp, by simp, by simp, by simp⟩
  · rw [e]
    refine ⟨by simp [List.mem_replicate], by simp [List.mem_replicate], ?_, ?_⟩
    · rw [List.pairwise_replicate]; exact .inr (by simp)
    · rw [List.pairwise_replicate]; exact .inr (by simp)

/-- **C76.** At any moment, under every schedule, with or without the timer: at most one answer was printed, at most one timeout; an answer
that was printed is right; the text of the answer seen so far (in the file or on the standard output) is the beginning of a complete one. -/
theorem C76_any_moment {pre : List (List Char)} {nv nc : Nat} {body : List Line} (h : GoodFile pre nv nc body) (o : Setup) (val : Option (List Char))
    {cfg : Cfg} (hc : cfg.enable = true) (p : Pre) (os : List Orc) (low : Nat → Bool) (report : List (List Char)) (es : List Ev) :
    let q := (Proc.start o val (mainActs o cfg p os low report (fileText pre nv nc body))).run es
    (statuses q.out).length ≤ 1 ∧ q.out.count .timeOut ≤ 1 ∧ (val = none → q.out.count .timeOut = 0) ∧
    (.sat ∈ statuses q.out → (formOf body).Satisfiable) ∧ (.unsat ∈ statuses q.out → ¬ (formOf body).Satisfiable) ∧
    (q.seen ≠ [] → ∃ full code, splrMain cfg p os low report (fileText pre nv nc body) = some (code, some full) ∧ q.seen <+: full) := by
  intro q
  obtain ⟨done, hi⟩ := inv_run (main_tidy o cfg p os low report (fileText pre nv nc body)) es (inv_start o val _)
  change Inv _ done _ q at hi
  have hsub : (statuses q.out).Sublist ((mainActs o cfg p os low report (fileText pre nv nc body)).filterMap Act.status?) := by
    rw [hi.split, List.filterMap_append, hi.status]; exact List.sublist_append_left _ _
  have htime : q.out.count .timeOut ≤ 1 ∧ (val = none → q.out.count .timeOut = 0) := by
    rw [hi.time]
    refine ⟨by split <;> omega, fun hv => ?_⟩
    rw [hi.timer (by subst hv; rfl)]; rfl
  have htext : q.seen <+: (mainActs o cfg p os low report (fileText pre nv nc body)).flatMap Act.chars := by
    rw [hi.split, List.flatMap_append, ← hi.text, List.append_assoc]; exact List.prefix_append _ _
  rcases shape o cfg p os low report (fileText pre nv nc body) with ⟨r, ts, e, e2⟩ | ⟨e, e2⟩ | e | e
  · rw [e, finish_status] at hsub
    rw [e, finish_chars] at htext
    refine ⟨hsub.length_le, htime.1, htime.2, fun hm => ?_, fun hm => ?_, fun _ => ⟨_, _, e2, htext⟩⟩
    · have := hsub.subset hm
      simp only [List.mem_singleton] at this
      subst this
      obtain ⟨vals, -, -, hs⟩ := C46_exit_10 h cfg p os low report e2
      exact ⟨_, hs⟩
    · have := hsub.subset hm
      simp only [List.mem_singleton] at this
      subst this
      exact (C46_exit_20 h hc p os low report e2).1
  · rw [e] at hsub htext
    have hsub : (statuses q.out).Sublist [.unsat] := hsub
    refine ⟨hsub.length_le, htime.1, htime.2, fun hm => ?_, fun hm => ?_, fun hs => ?_⟩
    · have := hsub.subset hm; simp at this
    · exact (C46_exit_20 h hc p os low report e2).1
    · exact absurd (List.prefix_nil.1 htext) hs
  · rw [e] at hsub htext
    have hsub : (statuses q.out) = [] := List.sublist_nil.1 hsub
    rw [hsub]
    exact ⟨by simp, htime.1, htime.2, by simp, by simp, fun hs => absurd (List.prefix_nil.1 htext) hs⟩
  · rw [e, replicate_status] at hsub
    rw [e, replicate_chars] at htext
    have hsub : (statuses q.out) = [] := List.sublist_nil.1 hsub
    rw [hsub]
    exact ⟨by simp, htime.1, htime.2, by simp, by simp, fun hs => absurd (List.prefix_nil.1 htext) hs⟩

/-- **C76.** When the process has ended. Code 10: the answer SATISFIABLE was printed and the text is complete, with a model. Code 20: UNSATISFIABLE was
printed, there is no model, and the text is complete (or there is none, if the clauses are contradictory when they are read). Code 0: UNKNOWN was printed,
by the main thread or by the timer. There is no other code. -/
theorem C76_at_the_end {pre : List (List Char)} {nv nc : Nat} {body : List Line} (h : GoodFile pre nv nc body) (o : Setup) (val : Option (List Char))
    {cfg : Cfg} (hc : cfg.enable = true) (p : Pre) (os : List Orc) (low : Nat → Bool) (report : List (List Char)) (es : List Ev) {code : Nat}
    (hcode : ((Proc.start o val (mainActs o cfg p os low report (fileText pre nv nc body))).run es).code = some code) :
    let q := (Proc.start o val (mainActs o cfg p os low report (fileText pre nv nc body))).run es
    (code = 10 ∧ statuses q.out = [.sat] ∧ ∃ vals, q.seen = answerText report vals ∧ Canonical vals nv ∧ Form.sat (valsAsg vals) (formOf body)) ∨
    (code = 20 ∧ statuses q.out = [.unsat] ∧ ¬ (formOf body).Satisfiable ∧ (q.seen = [] ∨ q.seen = statusText report "s UNSATISFIABLE".toList)) ∨
    (code = 0 ∧ statuses q.out = [.unknown] ∧ q.seen = statusText report "s UNKNOWN".toList) ∨
    (code = 0 ∧ val ≠ none ∧ .timeOut ∈ q.out) := by
  intro q
  obtain ⟨done, hi⟩ := inv_run (main_tidy o cfg p os low report (fileText pre nv nc body)) es (inv_start o val _)
  change Inv _ done _ q at hi
  have ht := main_tidy o cfg p os low report (fileText pre nv nc body)
  rcases hi.code code hcode with ⟨d, hd⟩ | ⟨h0, htm⟩
  · have hall : mainActs o cfg p os low report (fileText pre nv nc body) = d ++ [.exit code] := by
      have := ht.exit
      rw [hi.split, hd, List.append_assoc, List.pairwise_append] at this
      have h2 := this.2.1
      rw [List.singleton_append, List.pairwise_cons] at h2
      have : q.todo = [] := by
        by_contra hne
        obtain ⟨b, t, e⟩ := List.exists_cons_of_ne_nil hne
        exact h2.1 b (by rw [e]; simp) code rfl
      rw [hi.split, this, hd]; simp
    have hst : statuses q.out = (mainActs o cfg p os low report (fileText pre nv nc body)).filterMap Act.status? := by rw [hall, ← hd, hi.status]
    rcases shape o cfg p os low report (fileText pre nv nc body) with ⟨r, ts, e, e2⟩ | ⟨e, e2⟩ | e | e
    · obtain ⟨A, hA, -⟩ := finish_eq o r ts
      have hdA : d ++ [.exit code] = (A ++ [.close]) ++ [.exit (codeOf r)] := by rw [← hall, e, hA]; simp
      have hcr : code = codeOf r := by
        have := List.append_inj_right' hdA (by simp); simpa using this
      have hbuf : q.buf = [] := hi.closed A (.inr ⟨codeOf r, by rw [hd, hdA]; simp⟩)
      have hseen : q.seen = ts.flatten := by
        have := hi.text
        rw [hbuf, List.append_nil, hd, ← hall, e, finish_chars] at this
        exact this
      rw [e, finish_status] at hst
      rw [← hcr] at e2
      cases r with
      | sat =>
        subst hcr
        obtain ⟨vals, ha, hcan, hs⟩ := C46_exit_10 h cfg p os low report e2
        exact .inl ⟨rfl, hst, vals, by rw [hseen]; exact Option.some.inj ha, hcan, hs⟩
      | unsat =>
        subst hcr
        obtain ⟨hu, ha⟩ := C46_exit_20 h hc p os low report e2
        exact .inr (.inl ⟨rfl, hst, hu, .inr (by rw [hseen]; exact ha _ rfl)⟩)
      | unknown =>
        subst hcr
        have := C46_other_codes cfg p os low report _ e2
        simp only [codeOf] at this
        rcases this with h | h | h
        · omega
        · omega
        · exact .inr (.inr (.inl ⟨rfl, hst, by rw [hseen]; exact Option.some.inj h.2⟩))
    · have hdA : d ++ [.exit code] = [.print (.status .unsat)] ++ [.exit 20] := by rw [← hall, e]; rfl
      have hcr : code = 20 := by
        have := List.append_inj_right' hdA (by simp); simpa using this
      subst hcr
      rw [e] at hst
      obtain ⟨hu, ha⟩ := C46_exit_20 h hc p os low report e2
      refine .inr (.inl ⟨rfl, hst, hu, .inl ?_⟩)
      have := hi.text
      rw [hd, ← hall, e] at this
      exact (List.append_eq_nil_iff.1 this).1
    · exfalso
      rcases Sol.load_spec h with ⟨x, hx, -, -⟩ | ⟨hx, -⟩
      · unfold mainActs at e; rw [hx] at e
        simp only [] at e
        have := congrArg (List.filterMap Act.status?) e
        have h2 := congrArg List.length e
        cases hv : (solve cfg p os low x).verdict with
        | none =>
          rw [hv] at e
          simp only [List.append_nil] at e
          have : Act.exit 101 ∈ List.replicate o.chatter (Act.print Item.other) := by rw [e]; simp
          have := List.eq_of_mem_replicate this
          simp at this
        | _ => rw [hv] at h2; simp [saveActs] at h2; omega
      · unfold mainActs at e; rw [hx] at e; simp at e
    · have : Act.exit code ∈ List.replicate o.chatter (Act.print Item.other) := by rw [← e, hall]; simp
      have := List.eq_of_mem_replicate this
      simp at this
  · refine .inr (.inr (.inr ⟨h0, fun hv => ?_, ?_⟩))
    · have := hi.timer (by subst hv; rfl)
      rw [htm] at this; simp at this
    · have := hi.time
      rw [htm] at this
      exact List.count_pos_iff.1 (by rw [this]; simp)

/-- A schedule in which the main thread is never interrupted. -/
def alone (n : Nat) : List Ev := List.replicate n .main

/-- The process for the formula of `exFile`, with a timer. -/
def exProc (stdout : Bool) (es : List Ev) : Proc :=
  (Proc.start ⟨stdout, 1, 1⟩ (some "5".toList) (mainActs ⟨stdout, 1, 1⟩ {} plainPre (List.replicate 9 plainOrc) noLow ["c r".toList]
    (fileText ["hello".toList] 3 3 exBody))).run es

example : (exProc false (alone 30)).code = some 10 ∧ (exProc false (alone 30)).file = some "c r\ns SATISFIABLE\nv 1 2 -3 0\n".toList := by decide +kernel

/-- A crash while the answer is written. -/
example : (exProc false (alone 8 ++ [.spill 20])).code = none ∧ (exProc false (alone 8 ++ [.spill 20])).seen = "c r\ns SATISFIABLE\nv ".toList := by decide +kernel

theorem run_ends {n : Nat} : ∀ (es : List Ev) (p : Proc), p.code.isSome = true ∨ (∃ d, p.todo = d ++ [.exit n]) ∧ p.todo.length ≤ es.count .main →
    (p.run es).code.isSome = true
  | [], p, h => by
    rcases h with h | ⟨⟨d, hd⟩, h⟩
    · exact h
    · rw [hd] at h; simp at h
  | e :: es, p, h => by
    refine run_ends (n := n) es (p.step e) ?_
    by_cases hc : p.code.isSome = true
    · left; cases e <;> simp [Proc.step, hc]
    · obtain ⟨⟨d, hd⟩, hl⟩ := h.resolve_left hc
      cases e with
      | main =>
        rw [List.count_cons_self] at hl
        rw [Proc.step, if_neg hc]
        cases d with
        | nil => rw [hd]; left; rfl
        | cons a d =>
          rw [hd]
          simp only [List.cons_append]
          right
          rw [hd] at hl
          have : (Proc.perform { p with todo := d ++ [.exit n] } a).todo = d ++ [.exit n] := by
            cases a with
            | close => exact (spill_seen _ _).2.2.2.1
            | _ => rfl
          rw [this]
          refine ⟨⟨d, rfl⟩, ?_⟩
          simp only [List.cons_append, List.length_cons] at hl
          omega
      | timer =>
        rw [List.count_cons_of_ne (by simp)] at hl
        rw [Proc.step, if_neg hc]
        split
        · exact .inr ⟨⟨d, hd⟩, hl⟩
        · exact .inr ⟨⟨d, hd⟩, hl⟩
        · left; rfl
      | spill k =>
        rw [List.count_cons_of_ne (by simp)] at hl
        rw [Proc.step, if_neg hc]
        right
        rw [(spill_seen p k).2.2.2.1]
        exact ⟨⟨d, hd⟩, hl⟩

/-- **C76.** The process ends if `solve` gives an answer and the main thread makes enough steps. -/
theorem C76_ends (o : Setup) (val : Option (List Char)) (cfg : Cfg) (p : Pre) (os : List Orc) (low : Nat → Bool) (report : List (List Char))
    (text : List Char) {a : Nat × Option (List Char)} (ha : splrMain cfg p os low report text = some a) {es : List Ev}
    (he : (mainActs o cfg p os low report text).length ≤ es.count .main) :
    ∃ code, ((Proc.start o val (mainActs o cfg p os low report text)).run es).code = some code := by
  rw [← Option.isSome_iff_exists]
  have fin : ∀ n, (∃ d, mainActs o cfg p os low report text = d ++ [.exit n]) →
      ((Proc.start o val (mainActs o cfg p os low report text)).run es).code.isSome = true := fun n hd => run_ends (n := n) es _ (.inr ⟨hd, he⟩)
  have hnone : splrMain cfg p os low report text ≠ none := by rw [ha]; simp
  rcases shape o cfg p os low report text with ⟨r, ts, e, -⟩ | ⟨e, -⟩ | e | e
  · obtain ⟨A, hA, -⟩ := finish_eq o r ts
    exact fin (codeOf r) ⟨A ++ [.close], by rw [e, hA]; simp⟩
  · exact fin 20 ⟨[.print (.status .unsat)], by rw [e]; rfl⟩
  · exact fin 101 ⟨[], by rw [e]; rfl⟩
  · exfalso
    unfold mainActs at e
    unfold splrMain at hnone
    cases hl : Sol.load text with
    | emptyClause =>
      rw [hl] at e
      have : Act.exit 20 ∈ List.replicate o.chatter (Act.print Item.other) := by rw [← e]; simp
      have := List.eq_of_mem_replicate this
      simp at this
    | failed => rw [hl] at hnone; simp at hnone
    | ok x =>
      rw [hl] at e hnone
      simp only [] at e hnone
      have h2 := congrArg List.length e
      cases hv : (solve cfg p os low x).verdict with
      | none => rw [hv] at hnone; simp at hnone
      | _ => rw [hv] at h2; simp [saveActs] at h2

/-- **C76 (partial).** Without the timer: exactly one answer is printed, it is the one of the exit code, the text is complete, no timeout is printed.
Missing: with the timer (SPLR_TIMEOUT) the main thread and the timer may both print an answer, see `C76_violated`. -/
theorem C76_one_answer_partial {pre : List (List Char)} {nv nc : Nat} {body : List Line} (h : GoodFile pre nv nc body) (o : Setup)
    {cfg : Cfg} (hc : cfg.enable = true) (p : Pre) (os : List Orc) (low : Nat → Bool) (report : List (List Char)) (es : List Ev) {code : Nat}
    (hcode : ((Proc.start o none (mainActs o cfg p os low report (fileText pre nv nc body))).run es).code = some code) :
    let q := (Proc.start o none (mainActs o cfg p os low report (fileText pre nv nc body))).run es
    .timeOut ∉ q.out ∧ ∃ r, statuses q.out = [r] ∧ code = codeOf r := by
  intro q
  have h1 := C76_at_the_end h o none hc p os low report es hcode
  have h2 := (C76_any_moment h o none hc p os low report es).2.2.1 rfl
  refine ⟨List.count_eq_zero.1 h2, ?_⟩
  rcases h1 with ⟨rfl, h, -⟩ | ⟨rfl, h, -⟩ | ⟨rfl, h, -⟩ | ⟨-, h, -⟩
  · exact ⟨_, h, rfl⟩
  · exact ⟨_, h, rfl⟩
  · exact ⟨_, h, rfl⟩
  · exact absurd rfl h

/-- **C76 violated.** With the timer: the answer SATISFIABLE is printed, then the timeout; the exit code is 0 and the answer file is empty. Or: both are printed, and
the exit code is 10. Or (if the answer goes to the standard output): the timeout is printed in the middle of the line with the model. -/
theorem C76_violated :
    (∃ es, (exProc false es).out = [.other, .other, .status .sat, .timeOut] ∧ (exProc false es).code = some 0 ∧ (exProc false es).file = some []) ∧
    (∃ es, (exProc false es).out = [.other, .other, .status .sat, .timeOut] ∧ (exProc false es).code = some 10) ∧
    ∃ es, (exProc true es).out = [.other, .other, .status .sat, .text "c r\ns SATISFIABLE\nv 1 ".toList, .timeOut, .text "2 -3 0\n".toList] ∧ (exProc true es).code = some 10 :=
  ⟨⟨alone 5 ++ [.timer, .timer], by decide +kernel⟩, ⟨alone 5 ++ [.timer] ++ alone 20, by decide +kernel⟩,
    ⟨alone 7 ++ [.spill 22, .timer] ++ alone 20, by decide +kernel⟩⟩

/-- **C76.** The timer waits as long as the variable says. -/
theorem C76_timer_partial {t : Nat} (h : t * 1000 < 2 ^ 64) : sleepMs (some (Text.showNat t)) = some (t * 1000) := by
  unfold sleepMs
  rw [Option.bind_some, Text.parseUsize_showNat (by omega), Option.map_some, Nat.mod_eq_of_lt h]

/-- A large number of seconds is less than a second: `timeout * 1000` wraps (a debug build panics in the thread, then there is no timeout). -/
theorem C76_timer_violated : sleepMs (some (Text.showNat 18446744073709552)) = some 384 := by
  unfold sleepMs
  rw [Option.bind_some, Text.parseUsize_showNat (by decide), Option.map_some]

/-- **C76.** At any moment: if `dmcr` accepts what is seen of the answer, the clauses are satisfiable. -/
theorem C76_cut_answers {pre : List (List Char)} {nv nc : Nat} {body : List Line} (h : GoodFile pre nv nc body) (q : Proc)
    (e : dmcr (fileText pre nv nc body) q.seen = .valid) : (formOf body).Satisfiable := by
  cases hr : readAnswer (Text.readLines q.seen) with
  | some_ v =>
    obtain ⟨b, -, hb⟩ := C34_incomplete_answers h hr e
    exact ⟨b, hb⟩
  | _ =>
    unfold dmcr at e
    rw [hr] at e
    split at e <;> simp at e

/-- **C76 violated.** The beginning of a right answer, as it is left in the file by a timeout or a crash, may be reported by `dmcr` as coming from an
unsatisfiable problem (here the empty file) or as an invalid set of assignments. -/
theorem C76_cut_answers_violated :
    (∃ es, (exProc false es).code = some 0 ∧ dmcr (fileText ["hello".toList] 3 3 exBody) (exProc false es).seen = .inconsistent) ∧
    (∃ es, (exProc false es).code = some 0 ∧ dmcr (fileText ["hello".toList] 3 3 exBody) (exProc false es).seen = .invalid) ∧
    dmcr (fileText ["hello".toList] 3 3 exBody) (exProc false (alone 30)).seen = .valid :=
  ⟨⟨alone 5 ++ [.timer, .timer], by decide +kernel⟩, ⟨alone 7 ++ [.spill 22, .timer, .timer], by decide +kernel⟩, by decide +kernel⟩

end Splr.Process
