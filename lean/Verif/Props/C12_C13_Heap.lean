import Verif.Lemmas.HeapOrder
/-!
# C12: the decision queue is a permutation with exact membership.  C13: the root is a best variable.
-/
namespace Splr.Heap

/-- Specification of the queue: the set of queued variables after an operation with output `out`. -/
def specStep (S : Nat → Prop) (n : Nat) : Op → Option Nat → Nat → Prop
  | .insert v, _ => fun u => u = v ∨ S u
  | .update _, _ => S
  | .remove v, _ => fun u => u ≠ v ∧ S u
  | .root, out => fun u => some u ≠ out ∧ S u
  | .clear, _ => fun _ => False
  | .expand, _ => fun u => u < n ∧ S u

/-- The number of slots (variables + 1) after an operation. -/
def specSize (n : Nat) : Op → Nat
  | .expand => n + 1
  | _ => n

/-- An operation is allowed when the variable it mentions exists; the root is only taken from a non-empty queue. -/
def Allowed (S : Nat → Prop) (n : Nat) : Op → Prop
  | .insert v => 1 ≤ v ∧ v < n
  | .update v => 1 ≤ v ∧ v < n
  | .remove v => 1 ≤ v ∧ v < n
  | .root => ∃ v, 1 ≤ v ∧ v < n ∧ S v
  | .clear => True
  | .expand => True

/-- All queues reachable from a new one by allowed operations, under arbitrary and changing activities (`lt`),
together with the set of queued variables and the size that the specification assigns to the history. -/
inductive Reach : VarHeap → (Nat → Prop) → Nat → Prop where
  | new (n init : Nat) (hi : init ≤ n) : Reach (VarHeap.new n init) (fun v => v ≤ init) (n + 1)
  | step {h S n} (r : Reach h S n) (lt : Nat → Nat → Bool) (op : Op) (ok : Allowed S n op) (o : Option Nat)
      (h' : VarHeap) (e : h.step lt op = some (o, h')) : Reach h' (specStep S n op o) (specSize n op)

/-- A concrete heap represents the set `S` of queued variables among `1 .. n-1`: one position per variable, the
position index exact in both directions, the queued ones exactly those at positions up to the counter, and
`contains` answers exactly that. -/
structure Represents (h : VarHeap) (S : Nat → Prop) (n : Nat) : Prop where
  size : h.size = n
  pos : 0 < n
  position : ∀ v, 1 ≤ v → v < n → ∃ i, 1 ≤ i ∧ i < n ∧ h.heap i = v ∧ h.idxs v = i ∧
    ∀ j, 1 ≤ j → j < n → h.heap j = v → j = i
  elements : ∀ i, 1 ≤ i → i < n → 1 ≤ h.heap i ∧ h.heap i < n
  count : h.len < n
  prefixed : ∀ i, 1 ≤ i → i < n → (i ≤ h.len ↔ S (h.heap i))
  member : ∀ v, 1 ≤ v → v < n → ∃ b, h.contains v = some b ∧ (b = true ↔ S v)

theorem wf_of_represents {h S n} (r : Represents h S n) : Wf h := by
  obtain rfl := r.size
  refine ⟨r.elements, ?_, ?_, ?_, r.count⟩
  · intro v h1 h2; obtain ⟨i, i1, i2, -, e, -⟩ := r.position v h1 h2; omega
  · intro i h1 h2
    have rr := r.elements i h1 h2
    obtain ⟨j, j1, j2, e1, e2, u⟩ := r.position _ rr.1 rr.2
    rw [e2]; exact (u i h1 h2 rfl).symm
  · intro v h1 h2; obtain ⟨i, -, -, e1, e2, -⟩ := r.position v h1 h2; rw [e2, e1]

theorem represents_of_wf {h : VarHeap} {S : Nat → Prop} (w : Wf h)
    (m : ∀ v, 1 ≤ v → v < h.size → (h.idxs v ≤ h.idxs 0 ↔ S v)) : Represents h S h.size where
  size := rfl
  pos := w.size_pos
  position v h1 h2 := by
    have r := w.idx_range v h1 h2
    refine ⟨h.idxs v, r.1, r.2, w.heap_idx v h1 h2, rfl, fun j j1 j2 e => ?_⟩
    rw [← e, w.idx_heap j j1 j2]
  elements := w.heap_range
  count := w.len_lt
  prefixed i h1 h2 := by
    have r := w.heap_range i h1 h2
    rw [← m _ r.1 r.2, w.idx_heap i h1 h2]; rfl
  member v h1 h2 := ⟨_, contains_eq w h2, by simpa using m v h1 h2⟩

theorem mem_iff {h S n} (r : Represents h S n) : ∀ v, 1 ≤ v → v < h.size → (h.idxs v ≤ h.idxs 0 ↔ S v) := by
  intro v h1 h2
  obtain ⟨b, e, hb⟩ := r.member v h1 (by rw [← r.size]; exact h2)
  rw [contains_eq (wf_of_represents r) h2] at e
  cases e; simpa using hb

/-- One admissible operation never panics, keeps the representation and, for `root`, returns a queued variable. -/
theorem step_represents (lt : Nat → Nat → Bool) {h S n} (r : Represents h S n) (op : Op)
    (hop : Allowed S n op) :
    ∃ o h', h.step lt op = some (o, h') ∧ Represents h' (specStep S n op o) (specSize n op) ∧
      (match op, o with | .root, some v => S v ∧ 1 ≤ v ∧ v < n | .root, none => False | _, o => o = none) := by
  have w := wf_of_represents r
  have m := mem_iff r
  obtain rfl := r.size
  cases op with
  | insert v =>
    obtain ⟨h', e, w', s', m'⟩ := insertHeap_spec lt w hop.1 hop.2
    refine ⟨none, h', by simp [VarHeap.step, e], ?_, rfl⟩
    have : Represents h' (fun u => u = v ∨ S u) h'.size := represents_of_wf w' (fun u u1 u2 => by
      rw [m' u u1 (by omega), m u u1 (by omega)])
    rw [s'] at this; exact this
  | update v =>
    obtain ⟨h', e, w', s', m'⟩ := updateHeap_spec lt w hop.1 hop.2
    refine ⟨none, h', by simp [VarHeap.step, e], ?_, rfl⟩
    have : Represents h' S h'.size := represents_of_wf w' (fun u u1 u2 => by
      rw [m' u u1 (by omega), m u u1 (by omega)])
    rw [s'] at this; exact this
  | remove v =>
    obtain ⟨h', e, w', s', m'⟩ := removeHeap_spec lt w hop.1 hop.2
    refine ⟨none, h', by simp [VarHeap.step, e], ?_, rfl⟩
    have : Represents h' (fun u => u ≠ v ∧ S u) h'.size := represents_of_wf w' (fun u u1 u2 => by
      rw [m' u u1 (by omega), m u u1 (by omega)])
    rw [s'] at this; exact this
  | root =>
    obtain ⟨v, v1, v2, hv⟩ := hop
    have hr := w.idx_range v v1 v2
    have hle := (m v v1 v2).2 hv
    obtain ⟨h', e, w', s', m'⟩ := getRoot_spec lt w (by omega)
    have h1 := w.heap_range 1 (by omega) (by omega)
    refine ⟨some (h.heap 1), h', by simp [VarHeap.step, e], ?_, ?_⟩
    · have : Represents h' (fun u => some u ≠ some (h.heap 1) ∧ S u) h'.size := represents_of_wf w' (fun u u1 u2 => by
        rw [m' u u1 (by omega), m u u1 (by omega)]; simp)
      rw [s'] at this; exact this
    · refine ⟨?_, h1.1, h1.2⟩
      rw [← m _ h1.1 h1.2, w.idx_heap 1 (by omega) (by omega)]; omega
  | clear =>
    refine ⟨none, h.clear, rfl, ?_, rfl⟩
    exact represents_of_wf (wf_clear w) (fun u u1 u2 => by simp [VarHeap.clear, specStep]; omega)
  | expand =>
    refine ⟨none, h.expand, rfl, ?_, rfl⟩
    refine represents_of_wf (wf_expand w) (fun u u1 u2 => ?_)
    have hz := w.size_pos
    have hl := w.len_lt
    simp only [VarHeap.expand, specStep] at *
    rw [set_ne (j := 0) _ _ (by omega)]
    by_cases e : u = h.size
    · subst e; simp; omega
    · rw [set_ne _ _ e, m u u1 (by omega)]; constructor
      · intro hh; exact ⟨by omega, hh⟩
      · exact (·.2)

theorem new_represents (n init : Nat) (hi : init ≤ n) :
    Represents (VarHeap.new n init) (fun v => v ≤ init) (n + 1) :=
  represents_of_wf (wf_new n init hi) (fun v v1 v2 => by
    have : v ≠ 0 := by omega
    simp [VarHeap.new, this])

/-- **C12.** Every reachable queue represents exactly the set of queued variables: each variable at exactly one
position, exact position index, exact membership. -/
theorem C12_permutation {h S n} (r : Reach h S n) : Represents h S n := by
  induction r with
  | new n init hi => exact new_represents n init hi
  | step r lt op ok o h' e ih =>
    obtain ⟨o1, h1, e1, r1, -⟩ := step_represents lt ih op ok
    rw [e1] at e; cases e; exact r1

/-- **C12.** No allowed operation on a reachable queue panics (index out of range, counter underflow) and an
extracted root is a variable that was queued. -/
theorem C12_no_panic {h S n} (r : Reach h S n) (lt : Nat → Nat → Bool) (op : Op) (ok : Allowed S n op) :
    ∃ o h', h.step lt op = some (o, h') ∧ (op = .root → ∃ v, o = some v ∧ S v ∧ 1 ≤ v ∧ v < n) := by
  obtain ⟨o, h', e, -, ho⟩ := step_represents lt (C12_permutation r) op ok
  refine ⟨o, h', e, ?_⟩
  rintro rfl
  cases o with
  | none => exact ho.elim
  | some v => exact ⟨v, rfl, ho⟩

/-- The restriction on `root` is needed: on an empty queue it underflows the counter. -/
theorem C12_root_of_empty (lt : Nat → Nat → Bool) : (VarHeap.new 3 0).step lt .root = none := rfl

/-- non-vacuity: five variables, all queued; the first root is variable 1 and only it leaves the queue. -/
example : ((VarHeap.new 5 5).run [(fun u v => u < v, .root), (fun u v => u < v, .insert 1),
    (fun u v => u < v, .remove 3)]).map (fun r => (r.2, (List.range 6).map r.1.idxs))
    = some ([some 1, none, none], [4, 3, 2, 5, 4, 1]) := by decide +kernel

/-- **C13, partial.** Right after the queue is rebuilt (`rebuild_order`), the next root is a queued variable of
maximal activity. Missing: later roots — the claim is false for them, see `C13_violated`. -/
theorem C13_first_root_partial {α : Type} [LinearOrder α] (act : Nat → α) (h : VarHeap) (S : Nat → Prop) (n : Nat)
    (r : Represents h S n) (pick : Nat → Bool) (v₀ : Nat) (hv₀ : 1 ≤ v₀ ∧ v₀ < n) (hp : pick v₀ = true) :
    ∃ h1 v h2, h.rebuild (fun u v => decide (act u < act v)) pick = some h1 ∧
      Represents h1 (fun u => pick u = true) n ∧
      h1.getRoot (fun u v => decide (act u < act v)) = some (v, h2) ∧ pick v = true ∧ 1 ≤ v ∧ v < n ∧
      ∀ u, 1 ≤ u → u < n → pick u = true → act u ≤ act v := by
  have w := wf_of_represents r
  obtain rfl := r.size
  have hin : ∀ v, v ∈ List.range' 1 (h.size - 1) ↔ 1 ≤ v ∧ v < h.size := by
    intro v; rw [List.mem_range'_1]; omega
  obtain ⟨h1, e1, w1, s1, o1, m1⟩ := rebuild_aux act pick (List.range' 1 (h.size - 1)) h.clear (wf_clear w)
    (by intro i i1 i2; simp [VarHeap.clear] at i2; omega) (fun v hv => (hin v).1 hv)
  have m2 : ∀ u, 1 ≤ u → u < h.size → (h1.idxs u ≤ h1.idxs 0 ↔ pick u = true) := by
    intro u u1 u2
    rw [m1 u u1 u2, hin]
    simp [VarHeap.clear]; constructor
    · rintro (a | a)
      · exact a.2
      · omega
    · intro a; exact .inl ⟨⟨u1, u2⟩, a⟩
  have s1' : h1.size = h.size := s1
  have hmem := (m2 v₀ hv₀.1 hv₀.2).2 hp
  have hr := w1.idx_range v₀ hv₀.1 (by omega)
  obtain ⟨h2, e2, w2, s2, m3⟩ := getRoot_spec (fun u v => decide (act u < act v)) w1 (by omega)
  have hr1 := w1.heap_range 1 (by omega) (by omega)
  refine ⟨h1, h1.heap 1, h2, e1, ?_, e2, ?_, hr1.1, by omega, ?_⟩
  · have : Represents h1 (fun u => pick u = true) h1.size := represents_of_wf w1 (fun u u1 u2 => m2 u u1 (by omega))
    rw [s1'] at this; exact this
  · rw [← m2 _ hr1.1 (by omega), w1.idx_heap 1 (by omega) (by omega)]; omega
  · intro u u1 u2 hu
    have hle := (m2 u u1 u2).2 hu
    have ri := w1.idx_range u u1 (by omega)
    have := root_max act o1 (h1.idxs u) ri.1 hle
    rwa [w1.heap_idx u u1 (by omega)] at this

example : Represents (VarHeap.new 3 3) (fun v => v ≤ 3) 4 ∧ (fun v => v == 2) 2 = true := ⟨new_represents 3 3 (by omega), rfl⟩

example : Reach (VarHeap.new 3 3).clear (fun _ => False) 4 :=
  .step (.new 3 3 (by omega)) (fun _ _ => false) .clear trivial none _ rfl

/-- The comparison used by the counterexample: activity of variables 1..3 is 3, 2, 1. -/
def exAct (v : Nat) : Nat := if v = 1 then 3 else if v = 2 then 2 else 1

/-- **C13 is false of the code.** Three variables with activities 3, 2, 1: after `rebuild_order` the roots come out
in the order 1, 3, 2 although variable 2 is better than variable 3: `percolate_down` never looks at the last
queued position (`l < n` where `l <= n` is needed). -/
theorem C13_violated :
    ∃ h1, (VarHeap.new 3 3).rebuild (fun u v => decide (exAct u < exAct v)) (fun _ => true) = some h1 ∧
    ∃ h2, h1.getRoot (fun u v => decide (exAct u < exAct v)) = some (1, h2) ∧
    ∃ v h3, h2.getRoot (fun u v => decide (exAct u < exAct v)) = some (v, h3) ∧
      ∃ u, h2.contains u = some true ∧ exAct v < exAct u := by
  refine ⟨_, rfl, _, rfl, 3, _, rfl, 2, by decide +kernel, by decide⟩

end Splr.Heap
