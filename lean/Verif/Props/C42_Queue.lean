import Verif.Model.OccHeap
import Verif.Props.C12_C13_Heap
/-!
# C42: the elimination queue is consistent
-/
namespace Splr.Heap

/-- The variable is in the queue, as `contains` answers. -/
def OccQ.Mem (q : OccQ) (v : Nat) : Prop := q.h.contains v = some true

/-- The variable an operation is about exists; a variable is only taken from the queue of a formula that has variables. -/
def OccOp.Ok (n : Nat) : OccOp → Prop
  | .enqueue v _ _ => 1 ≤ v ∧ v ≤ n
  | .pop _ => 1 ≤ n
  | _ => True

/-- The queues for `n` variables reachable by any operations, under arbitrary and changing numbers of occurrences. -/
inductive OccReach (n : Nat) : OccQ → Prop
  | new : OccReach n (OccQ.new n)
  | step {q q' : OccQ} {lt : Nat → Nat → Bool} {op : OccOp} {o : Option Nat} (r : OccReach n q) (ok : op.Ok n)
      (e : q.step lt op = some (o, q')) : OccReach n q'

/-- The same, if the queue is cleared or replaced only when it is empty and no queued variable is eliminated when one is taken. -/
inductive OccClean (n : Nat) : OccQ → Prop
  | new : OccClean n (OccQ.new n)
  | step {q q' : OccQ} {lt : Nat → Nat → Bool} {op : OccOp} {o : Option Nat} (r : OccClean n q) (ok : op.Ok n)
      (hc : (op = .clear ∨ op = .renew) → ∀ v, 1 ≤ v → v ≤ n → ¬ q.Mem v)
      (he : ∀ elim, op = .pop elim → ∀ v, 1 ≤ v → v ≤ n → q.Mem v → elim v = false)
      (e : q.step lt op = some (o, q')) : OccClean n q'

theorem getRootOcc_len (lt) {h : VarHeap} (w : Wf h) (hn : 0 < h.idxs 0) {v : Nat} {h' : VarHeap}
    (e : h.getRootOcc lt = some (v, h')) : h'.idxs 0 = h.idxs 0 - 1 := by
  have hl := w.len_lt
  have h0 : ¬ h.idxs 0 = 0 := by omega
  have h1s : 1 < h.size := by omega
  obtain ⟨h1, e1, w1, s1, l1, m1⟩ := dropAt_spec w (i := 1) (by omega) (by omega)
  simp [VarHeap.getRootOcc, VarHeap.heapAt, VarHeap.idxAt, hl, h0, h1s, w.size_pos, e1] at e
  by_cases hgt : 1 < h1.len
  · obtain ⟨h2, e2, w2, s2, l2, m2⟩ := percDown_spec lt w1 (i := 1) (by omega) (by omega)
    simp [hgt, e2] at e
    obtain ⟨-, rfl⟩ := e
    omega
  · simp [hgt] at e
    obtain ⟨-, rfl⟩ := e
    exact l1

/-- membership in terms of positions -/
theorem mem_pos {h : VarHeap} (w : Wf h) {v : Nat} (hv : v < h.size) : h.contains v = some true ↔ h.idxs v ≤ h.idxs 0 := by
  rw [contains_eq w hv]; simp

theorem selectOcc_spec (lt : Nat → Nat → Bool) (elim : Nat → Bool) : ∀ (fuel : Nat) (h : VarHeap), Wf h → 1 < h.size →
    h.idxs 0 < fuel → ∃ o h', selectOcc lt elim fuel h = some (o, h') ∧ Wf h' ∧ h'.size = h.size ∧
      (∀ u, 1 ≤ u → u < h.size → h'.contains u = some true → h.contains u = some true) ∧
      (∀ u, 1 ≤ u → u < h.size → h.contains u = some true → elim u = false → o = some u ∨ h'.contains u = some true) ∧
      (∀ v, o = some v → 1 ≤ v ∧ v < h.size ∧ elim v = false ∧ h.contains v = some true ∧ h'.contains v ≠ some true) ∧
      (o = none → h'.idxs 0 = 0)
  | 0, h, _, _, hf => by omega
  | fuel + 1, h, w, h1, hf => by
    have hl := w.len_lt
    unfold selectOcc
    by_cases h0 : h.idxs 0 = 0
    · have e : h.getRootOcc lt = some (0, h) := by
        simp [VarHeap.getRootOcc, VarHeap.heapAt, VarHeap.idxAt, h0, h1, w.size_pos]
      rw [e]
      refine ⟨none, h, by simp, w, rfl, fun _ _ _ hu => hu, ?_, by simp, fun _ => h0⟩
      intro u u1 u2 hu _
      rw [mem_pos w u2] at hu
      have := w.idx_range u u1 u2; omega
    · have hpos : 0 < h.idxs 0 := by omega
      obtain ⟨h2, e2, w2, s2, m2⟩ := getRootOcc_spec lt w hpos
      have hlen := getRootOcc_len lt w hpos e2
      have r1 := w.heap_range 1 (by omega) h1
      have hroot : h.contains (h.heap 1) = some true := by
        rw [mem_pos w r1.2, w.idx_heap 1 (by omega) h1]; omega
      have hmem : ∀ u, 1 ≤ u → u < h.size → (h2.contains u = some true ↔ u ≠ h.heap 1 ∧ h.contains u = some true) := by
        intro u u1 u2
        rw [mem_pos w2 (by omega), mem_pos w u2]; exact m2 u u1 u2
      rw [e2]
      simp only [show h.heap 1 ≠ 0 by omega, if_false]
      by_cases he : elim (h.heap 1) = true
      · rw [if_pos he]
        obtain ⟨o, h3, e3, w3, s3, a, b, c, d⟩ := selectOcc_spec lt elim fuel h2 w2 (by omega) (by omega)
        refine ⟨o, h3, e3, w3, by omega, ?_, ?_, ?_, d⟩
        · intro u u1 u2 hu
          exact ((hmem u u1 u2).1 (a u u1 (by omega) hu)).2
        · intro u u1 u2 hu hel
          refine b u u1 (by omega) ((hmem u u1 u2).2 ⟨?_, hu⟩) hel
          rintro rfl; rw [he] at hel; cases hel
        · intro v hv
          obtain ⟨c1, c2, c3, c4, c5⟩ := c v hv
          exact ⟨c1, by omega, c3, ((hmem v c1 (by omega)).1 c4).2, c5⟩
      · rw [if_neg he]
        refine ⟨_, h2, rfl, w2, s2, fun u u1 u2 hu => ((hmem u u1 u2).1 hu).2, ?_, ?_, by simp⟩
        · intro u u1 u2 hu _
          by_cases hh : u = h.heap 1
          · exact .inl (by rw [hh])
          · exact .inr ((hmem u u1 u2).2 ⟨hh, hu⟩)
        · intro v hv
          cases hv
          exact ⟨r1.1, r1.2, by simpa using he, hroot, fun hc => ((hmem _ r1.1 r1.2).1 hc).1 rfl⟩

theorem wf_new0 (n : Nat) : Wf (VarHeap.new n 0) := wf_new n 0 (by omega)

theorem not_mem_new (n v : Nat) (h1 : 1 ≤ v) (h2 : v < n + 1) : (VarHeap.new n 0).contains v ≠ some true := by
  intro h
  rw [mem_pos (wf_new0 n) h2] at h
  have : v ≠ 0 := by omega
  simp [VarHeap.new, this] at h

/-- Every operation on a well-formed queue: it succeeds, and what it does to the members and the flags. -/
theorem occ_step (lt : Nat → Nat → Bool) {q : OccQ} {n : Nat} (w : Wf q.h) (hs : q.h.size = n + 1) (op : OccOp) (ok : op.Ok n) :
    ∃ o q', q.step lt op = some (o, q') ∧ Wf q'.h ∧ q'.h.size = n + 1 ∧
      match op with
      | .enqueue v few _ => o = none ∧
          (∀ u, 1 ≤ u → u ≤ n → (q'.Mem u ↔ (u = v ∧ few = true ∧ q.enq v = false) ∨ q.Mem u)) ∧
          (∀ u, q'.enq u = true ↔ (u = v ∧ few = true) ∨ q.enq u = true)
      | .pop elim =>
          (∀ u, 1 ≤ u → u ≤ n → q'.Mem u → q.Mem u) ∧
          (∀ u, 1 ≤ u → u ≤ n → q.Mem u → elim u = false → o = some u ∨ q'.Mem u) ∧
          (∀ v, o = some v → 1 ≤ v ∧ v ≤ n ∧ elim v = false ∧ q.Mem v ∧ ¬ q'.Mem v) ∧
          (o = none → ∀ u, 1 ≤ u → u ≤ n → ¬ q'.Mem u) ∧
          (∀ u, q'.enq u = true ↔ o ≠ some u ∧ q.enq u = true)
      | .clear => o = none ∧ (∀ u, 1 ≤ u → u ≤ n → ¬ q'.Mem u) ∧ (∀ u, q'.enq u = true → q.enq u = true)
      | .renew => o = none ∧ (∀ u, 1 ≤ u → u ≤ n → ¬ q'.Mem u) ∧ q'.enq = q.enq := by
  cases op with
  | enqueue v few upward =>
    by_cases hg : (!q.enq v && few) = true
    · obtain ⟨h', e, w', s', m'⟩ := insertOcc_spec lt w upward ok.1 (by have := ok.2; omega)
      refine ⟨none, _, by simp only [OccQ.step, hg, if_true, e]; rfl, w', by simp only; omega, rfl, ?_, ?_⟩
      · intro u u1 u2
        simp only [OccQ.Mem]
        rw [mem_pos w' (by omega), mem_pos w (by omega), m' u u1 (by omega)]
        simp only [Bool.and_eq_true, Bool.not_eq_true'] at hg
        simp [hg]
      · intro u
        simp only [Bool.and_eq_true, Bool.not_eq_true'] at hg
        by_cases hu : u = v
        · simp [hu, hg]
        · simp [hu]
    · refine ⟨none, q, by simp only [OccQ.step, hg]; rfl, w, hs, rfl, ?_, ?_⟩
      · intro u _ _
        constructor
        · exact .inr
        · rintro (⟨-, hf, he⟩ | h)
          · simp [hf, he] at hg
          · exact h
      · intro u
        constructor
        · exact .inr
        · rintro (⟨rfl, hf⟩ | h)
          · simpa [hf] using hg
          · exact h
  | pop elim =>
    have hn : 1 ≤ n := ok
    obtain ⟨o, h', e, w', s', a, b, c, d⟩ := selectOcc_spec lt elim (q.h.len + 1) q.h w (by omega) (by simp [VarHeap.len])
    cases o with
    | none =>
      refine ⟨none, { q with h := h' }, by simp only [OccQ.step, e], w', by simp only; omega, ?_, ?_, by simp, ?_, by simp⟩
      · intro u u1 u2 hu; exact a u u1 (by omega) hu
      · intro u u1 u2 hu he; exact b u u1 (by omega) hu he
      · intro _ u u1 u2 hu
        rw [OccQ.Mem, mem_pos w' (by omega)] at hu
        have := w'.idx_range u u1 (by omega)
        have := d rfl
        omega
    | some v =>
      refine ⟨some v, { h := h', enq := fun u => if u = v then false else q.enq u }, by simp only [OccQ.step, e], w', by simp only; omega, ?_, ?_, ?_, by simp, ?_⟩
      · intro u u1 u2 hu; exact a u u1 (by omega) hu
      · intro u u1 u2 hu he; exact b u u1 (by omega) hu he
      · intro v' hv
        obtain ⟨c1, c2, c3, c4, c5⟩ := c v' hv
        exact ⟨c1, by omega, c3, c4, c5⟩
      · intro u
        by_cases hu : u = v
        · simp [hu]
        · simp [hu, Ne.symm hu]
  | clear =>
    refine ⟨none, _, rfl, wf_clear w, hs, rfl, ?_, ?_⟩
    · intro u u1 u2 hu
      simp only [OccQ.Mem] at hu
      rw [mem_pos (wf_clear w) (by simp only [VarHeap.clear]; omega)] at hu
      simp [VarHeap.clear] at hu; omega
    · intro u hu; simp at hu; exact hu.1
  | renew =>
    refine ⟨none, _, rfl, ?_, ?_, rfl, ?_, rfl⟩
    · simp only [hs]; exact wf_new0 n
    · simp only [hs]; rfl
    · intro u u1 u2 hu
      simp only [OccQ.Mem, hs] at hu
      exact not_mem_new n u u1 (by omega) hu

theorem OccReach.wf {n : Nat} {q : OccQ} (r : OccReach n q) :
    Wf q.h ∧ q.h.size = n + 1 ∧ ∀ v, 1 ≤ v → v ≤ n → q.Mem v → q.enq v = true := by
  induction r with
  | new => exact ⟨wf_new0 n, rfl, fun v h1 h2 hm => absurd hm (not_mem_new n v h1 (by omega))⟩
  | @step q q' lt op o r ok e ih =>
    obtain ⟨w, hs, hf⟩ := ih
    obtain ⟨o1, q1, e1, w1, s1, sp⟩ := occ_step lt w hs op ok
    rw [e1] at e
    cases e
    refine ⟨w1, s1, fun v h1 h2 hm => ?_⟩
    cases op with
    | enqueue u few up =>
      refine (sp.2.2 v).2 ?_
      rcases (sp.2.1 v h1 h2).1 hm with ⟨a, b, -⟩ | a
      · exact .inl ⟨a, b⟩
      · exact .inr (hf v h1 h2 a)
    | pop elim =>
      refine (sp.2.2.2.2 v).2 ⟨?_, hf v h1 h2 (sp.1 v h1 h2 hm)⟩
      rintro rfl
      exact (sp.2.2.1 v rfl).2.2.2.2 hm
    | clear => exact absurd hm (sp.2.1 v h1 h2)
    | renew => exact absurd hm (sp.2.1 v h1 h2)

/-- **C42.** In every reachable state each variable has exactly one position, the index of positions is exact, the queued
variables are those up to the counter, and each queued variable has its flag. -/
theorem C42_consistent {n : Nat} {q : OccQ} (r : OccReach n q) :
    Represents q.h q.Mem (n + 1) ∧ ∀ v, 1 ≤ v → v ≤ n → q.Mem v → q.enq v = true := by
  obtain ⟨w, hs, hf⟩ := r.wf
  refine ⟨?_, hf⟩
  have := represents_of_wf (S := q.Mem) w (fun v _ h2 => (mem_pos w h2).symm)
  rwa [hs] at this

/-- **C42.** No operation panics. Enqueueing adds the variable (if it has few occurrences and its flag is off) and nothing else;
taking a variable yields a queued variable that is not eliminated, or nothing when no such variable is queued, and loses no other
variable that is not eliminated; after clearing, nothing is queued. -/
theorem C42_operations {n : Nat} {q : OccQ} (r : OccReach n q) (lt : Nat → Nat → Bool) (op : OccOp) (ok : op.Ok n) :
    ∃ o q', q.step lt op = some (o, q') ∧
      match op with
      | .enqueue v few _ => ∀ u, 1 ≤ u → u ≤ n → (q'.Mem u ↔ (u = v ∧ few = true ∧ q.enq v = false) ∨ q.Mem u)
      | .pop elim =>
          (∀ v, o = some v → 1 ≤ v ∧ v ≤ n ∧ q.Mem v ∧ elim v = false ∧ ¬ q'.Mem v ∧ q'.enq v = false) ∧
          (o = none → ∀ u, 1 ≤ u → u ≤ n → ¬ q'.Mem u ∧ (q.Mem u → elim u = true)) ∧
          (∀ u, 1 ≤ u → u ≤ n → q'.Mem u → q.Mem u) ∧
          (∀ u, 1 ≤ u → u ≤ n → q.Mem u → elim u = false → o ≠ some u → q'.Mem u)
      | .clear => ∀ u, 1 ≤ u → u ≤ n → ¬ q'.Mem u
      | .renew => ∀ u, 1 ≤ u → u ≤ n → ¬ q'.Mem u := by
  obtain ⟨w, hs, hf⟩ := r.wf
  obtain ⟨o, q', e, w', s', sp⟩ := occ_step lt w hs op ok
  refine ⟨o, q', e, ?_⟩
  cases op with
  | enqueue v few up => exact sp.2.1
  | pop elim =>
    obtain ⟨a, b, c, d, f⟩ := sp
    refine ⟨?_, ?_, a, ?_⟩
    · intro v hv
      obtain ⟨c1, c2, c3, c4, c5⟩ := c v hv
      refine ⟨c1, c2, c4, c3, c5, ?_⟩
      cases h : q'.enq v with
      | false => rfl
      | true => exact absurd hv ((f v).1 h).1
    · intro ho u u1 u2
      refine ⟨d ho u u1 u2, fun hm => ?_⟩
      cases h : elim u with
      | true => rfl
      | false =>
        rcases b u u1 u2 hm h with h1 | h1
        · rw [ho] at h1; cases h1
        · exact absurd h1 (d ho u u1 u2)
    · intro u u1 u2 hm he hne
      rcases b u u1 u2 hm he with h1 | h1
      · exact absurd h1 hne
      · exact h1
  | clear => exact sp.2.1
  | renew => exact sp.2.1

/-- **C42, partial.** The flag of a variable is set exactly if it is queued, as long as the queue is only cleared when it is empty and
no queued variable is eliminated. Missing: the other histories, for which it is false, see `C42_violated`. -/
theorem C42_flags_partial {n : Nat} {q : OccQ} (r : OccClean n q) :
    OccReach n q ∧ ∀ v, 1 ≤ v → v ≤ n → (q.enq v = true ↔ q.Mem v) := by
  induction r with
  | new => exact ⟨.new, fun v h1 h2 => ⟨fun h => by simp [OccQ.new] at h, fun h => absurd h (not_mem_new n v h1 (by omega))⟩⟩
  | @step q q' lt op o r ok hc he e ih =>
    obtain ⟨rr, hf⟩ := ih
    obtain ⟨w, hs, -⟩ := rr.wf
    refine ⟨.step rr ok e, fun v h1 h2 => ?_⟩
    obtain ⟨o1, q1, e1, w1, s1, sp⟩ := occ_step lt w hs op ok
    rw [e1] at e
    cases e
    cases op with
    | enqueue u few up =>
      rw [sp.2.2 v, sp.2.1 v h1 h2, ← hf v h1 h2]
      constructor
      · rintro (⟨a, b⟩ | a)
        · subst a
          cases h : q.enq v with
          | true => exact .inr rfl
          | false => exact .inl ⟨rfl, b, rfl⟩
        · exact .inr a
      · rintro (⟨a, b, -⟩ | a)
        · exact .inl ⟨a, b⟩
        · exact .inr a
    | pop elim =>
      rw [sp.2.2.2.2 v, hf v h1 h2]
      constructor
      · rintro ⟨a, b⟩
        rcases sp.2.1 v h1 h2 b (he elim rfl v h1 h2 b) with h | h
        · exact absurd h a
        · exact h
      · intro h
        refine ⟨fun ho => (sp.2.2.1 v ho).2.2.2.2 h, sp.1 v h1 h2 h⟩
    | clear =>
      have h0 := hc (.inl rfl) v h1 h2
      constructor
      · intro h; exact absurd ((hf v h1 h2).1 (sp.2.2 v h)) h0
      · intro h; exact absurd h (sp.2.1 v h1 h2)
    | renew =>
      have h0 := hc (.inr rfl) v h1 h2
      constructor
      · intro h; rw [sp.2.2] at h; exact absurd ((hf v h1 h2).1 h) h0
      · intro h; exact absurd h (sp.2.1 v h1 h2)

/-- Run some operations, with the order by number. -/
def OccQ.runOps (q : OccQ) : List OccOp → Option (List (Option Nat) × OccQ)
  | [] => some ([], q)
  | op :: ops =>
    match q.step (fun u v => decide (v < u)) op with
    | none => none
    | some (o, q1) => (q1.runOps ops).map fun r => (o :: r.1, r.2)

/-- non-vacuity: three variables, 3 is eliminated; 2 and then 1 are taken, the eliminated one is skipped. -/
example : ((OccQ.new 3).runOps [.enqueue 3 true true, .enqueue 2 true true, .enqueue 1 false true, .pop (fun v => v == 2),
    .enqueue 1 true false, .pop fun _ => false, .pop fun _ => false]).map (fun r => (r.1, r.2.enq 2))
    = some ([none, none, none, some 3, none, some 1, none], true) := by decide +kernel

theorem OccReach.runOps {n : Nat} {q : OccQ} (r : OccReach n q) : ∀ (ops : List OccOp) (x : List (Option Nat) × OccQ),
    (∀ op ∈ ops, op.Ok n) → q.runOps ops = some x → OccReach n x.2 := by
  intro ops
  induction ops generalizing q with
  | nil => intro x _ e; simp only [OccQ.runOps, Option.some.injEq] at e; subst e; exact r
  | cons op ops ih =>
    intro x ok e
    unfold OccQ.runOps at e
    cases h : q.step (fun u v => decide (v < u)) op with
    | none => rw [h] at e; cases e
    | some p =>
      rw [h] at e
      simp only [Option.map_eq_some_iff] at e
      obtain ⟨y, e, rfl⟩ := e
      exact ih (.step r (ok op (by simp)) (o := p.1) (q' := p.2) h) y (fun o ho => ok o (by simp [ho])) e

/-- non-vacuity: a reachable queue with two members. -/
example : ∃ q, OccReach 3 q ∧ q.Mem 3 ∧ q.Mem 2 ∧ ¬ q.Mem 1 :=
  ⟨_, OccReach.new.runOps [.enqueue 3 true true, .enqueue 2 true true] _ (by simp [OccOp.Ok]) rfl,
    by unfold OccQ.Mem; decide +kernel, by unfold OccQ.Mem; decide +kernel, by unfold OccQ.Mem; decide +kernel⟩

/-- non-vacuity of the partial theorem: two variables are queued, one is taken -/
example : ∃ q, OccClean 3 q ∧ q.Mem 3 ∧ ¬ q.Mem 2 := by
  refine ⟨_, .step (lt := fun u v => decide (v < u)) (op := .pop fun _ => false) (.step (lt := fun u v => decide (v < u)) (op := .enqueue 3 true true)
    (.step (lt := fun u v => decide (v < u)) (op := .enqueue 2 true true) .new (by simp [OccOp.Ok]) (by simp) (by simp) rfl)
      (by simp [OccOp.Ok]) (by simp) (by simp) rfl) (by simp [OccOp.Ok]) (by simp) ?_ rfl, ?_, ?_⟩
  · intro elim h; cases h; simp
  · unfold OccQ.Mem; decide +kernel
  · unfold OccQ.Mem; decide +kernel

/-- **C42 is false of the code.** `clear` looks at `heap[0..n]` instead of `heap[1..=n]`: the variable at the last position keeps its
flag although the queue is empty, so that it can not be queued again, not even by the eliminator of the next round. -/
theorem C42_violated :
    ∃ q, OccReach 3 q ∧ (∀ v, 1 ≤ v → v ≤ 3 → ¬ q.Mem v) ∧ q.enq 2 = true ∧
      ∀ lt up q', q.step lt (.enqueue 2 true up) = some (none, q') → ¬ q'.Mem 2 := by
  refine ⟨_, OccReach.new.runOps [.enqueue 1 true true, .enqueue 2 true true, .clear, .renew] _ (by simp [OccOp.Ok]) rfl, ?_, rfl, ?_⟩
  · intro v h1 h2
    unfold OccQ.Mem
    obtain rfl | rfl | rfl : v = 1 ∨ v = 2 ∨ v = 3 := by omega
    all_goals decide +kernel
  · intro lt up q' e
    have : q' = _ := ((Prod.mk.inj (Option.some.inj e)).2).symm
    rw [this]
    unfold OccQ.Mem
    decide +kernel

end Splr.Heap
