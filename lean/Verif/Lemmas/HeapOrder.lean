import Verif.Lemmas.Heap
import Mathlib.Order.Defs.LinearOrder
/-! Heap order: `percolate_up` is correct for fixed activities (used for the partial C13). -/
namespace Splr.Heap
variable {α : Type} [LinearOrder α]

/-- comparison by activity, as the code compares -/
def ltOf (act : Nat → α) (u v : Nat) : Bool := decide (act u < act v)

/-- no queued variable is better than its parent -/
def Ordered (act : Nat → α) (h : VarHeap) : Prop :=
  ∀ i, 2 ≤ i → i ≤ h.idxs 0 → act (h.heap i) ≤ act (h.heap (i / 2))

theorem root_max (act : Nat → α) {h : VarHeap} (o : Ordered act h) :
    ∀ i, 1 ≤ i → i ≤ h.idxs 0 → act (h.heap i) ≤ act (h.heap 1) := by
  intro i
  induction i using Nat.strongRecOn with
  | _ i ih =>
    intro h1 h2
    rcases Nat.lt_or_ge i 2 with hlt | hge
    · have : i = 1 := by omega
      subst this; exact le_refl _
    · exact le_trans (o i hge h2) (ih (i/2) (by omega) (by omega) (by omega))

/-- ordered except between `q` and its parent -/
structure OrdHole (act : Nat → α) (h : VarHeap) (q n : Nat) : Prop where
  other : ∀ i, 2 ≤ i → i ≤ n → i ≠ q → act (h.heap i) ≤ act (h.heap (i / 2))
  child : ∀ c, c ≤ n → c / 2 = q → 2 ≤ q → act (h.heap c) ≤ act (h.heap (q / 2))

theorem percUpLoop_ordered (act : Nat → α) (n : Nat) : ∀ fuel (h h' : VarHeap) (q vq : Nat),
    OrdHole act (plug h q vq) q n → 1 ≤ q → q ≤ n → n < h.size → Wf (plug h q vq) →
    percUpLoop (ltOf act) fuel h q vq = some h' → vq < h.size →
    ∀ i, 2 ≤ i → i ≤ n → act (h'.heap i) ≤ act (h'.heap (i / 2)) := by
  intro fuel
  induction fuel with
  | zero => intro h h' q vq _ _ _ _ _ e; simp [percUpLoop] at e
  | succ fuel ih =>
    intro h h' q vq o hq hqn hn w e hv
    have hq' : q < h.size := by omega
    have e2 : (plug h q vq).heap q = vq := by simp [plug]
    simp only [percUpLoop] at e
    by_cases hp : q / 2 = 0
    · simp only [hp, if_true, put_eq hq' hv, Option.some.injEq] at e
      subst e
      intro i i1 i2
      exact o.other i i1 i2 (by omega)
    · simp only [hp, if_false] at e
      have hpq : q / 2 < q := by omega
      have hps : q / 2 < h.size := by omega
      have eh : (plug h q vq).heap (q/2) = h.heap (q/2) := by simp [plug, set, Nat.ne_of_lt hpq]
      simp only [VarHeap.heapAt, hps, if_true, Option.bind_eq_bind, Option.bind_some] at e
      have rp := w.heap_range (q/2) (by omega) hps
      rw [eh] at rp
      have rp2 : h.heap (q/2) < h.size := rp.2
      by_cases hlt : act (h.heap (q/2)) < act vq
      · have hb : ltOf act (h.heap (q/2)) vq = true := by simpa [ltOf] using hlt
        rw [hb] at e
        simp only [if_true] at e
        rw [put_eq hq' rp2, Option.bind_some] at e
        have em := plug_move (h := h) (vq := vq) (Nat.ne_of_lt hpq)
        have w' : Wf (plug (plug h q (h.heap (q/2))) (q/2) vq) := by
          rw [em]; exact wf_sw w (by omega) hps hq hq'
        have hh : ∀ i, (sw (plug h q vq) (q/2) q).heap i =
            if i = q/2 then vq else if i = q then h.heap (q/2) else (plug h q vq).heap i := by
          intro i; rw [sw_heap, e2, eh]
        refine ih (plug h q (h.heap (q/2))) h' (q/2) vq ?_ (by omega) (by omega) hn w' e hv
        rw [em]
        constructor
        · intro i i1 i2 i3
          rw [hh i, if_neg i3, hh (i/2)]
          by_cases iq : i = q
          · subst iq
            simp only [if_true]
            exact le_of_lt hlt
          · rw [if_neg iq]
            by_cases hpar : i / 2 = q / 2
            · rw [if_pos hpar]
              have := o.other i i1 i2 iq
              rw [hpar, eh] at this
              exact le_trans this (le_of_lt hlt)
            · rw [if_neg hpar]
              by_cases hpar2 : i / 2 = q
              · rw [if_pos hpar2]
                have := o.child i i2 hpar2 (by omega)
                rwa [eh] at this
              · rw [if_neg hpar2]; exact o.other i i1 i2 iq
        · intro c c1 c2 c3
          have hqq : (plug h q vq).heap (q/2/2) = (sw (plug h q vq) (q/2) q).heap (q/2/2) := by
            rw [hh, if_neg (by omega), if_neg (by omega)]
          rw [← hqq, hh c, if_neg (by omega)]
          have hpp := o.other (q/2) c3 (by omega) (by omega)
          rw [eh] at hpp
          by_cases cq : c = q
          · rw [if_pos cq]; exact hpp
          · rw [if_neg cq]
            have := o.other c (by omega) c1 cq
            rw [c2, eh] at this
            exact le_trans this hpp
      · have hb : ltOf act (h.heap (q/2)) vq = false := by simpa [ltOf] using hlt
        rw [hb] at e
        simp only [Bool.false_eq_true, if_false, put_eq hq' hv, Option.some.injEq] at e
        subst e
        intro i i1 i2
        by_cases iq : i = q
        · subst iq; rw [e2, eh]; exact not_lt.1 hlt
        · exact o.other i i1 i2 iq

theorem insertHeap_ordered (act : Nat → α) {h h' : VarHeap} (w : Wf h) (o : Ordered act h) {v : Nat} (hv : 1 ≤ v)
    (hv' : v < h.size) (e : h.insertHeap (ltOf act) v = some h') : Ordered act h' := by
  obtain ⟨i, h1, e1, w1, s1, i1, i2, hv1, -, hcase⟩ := insertPos_spec w hv hv'
  have hi1 : i < h1.size := by have := w1.len_lt; omega
  have e2 : h1.percUp (ltOf act) i = some h' := by simpa [VarHeap.insertHeap, e1] using e
  obtain ⟨h2, e3, w2, s2, l2, -⟩ := percUp_spec (ltOf act) w1 i1 hi1
  rw [e3] at e2; cases e2
  unfold Ordered
  rw [l2]
  have ps := plug_self w1 i1 hi1
  have ri := w1.heap_range i i1 hi1
  have e4 : percUpLoop (ltOf act) (i+1) h1 i (h1.heap i) = some h' := by
    simpa [VarHeap.percUp, VarHeap.heapAt, hi1] using e3
  refine percUpLoop_ordered act (h1.idxs 0) (i+1) h1 h' i (h1.heap i) ?_ i1 i2 w1.len_lt (by rw [ps]; exact w1) e4 ri.2
  rw [ps]
  rcases hcase with ⟨_, rfl⟩ | ⟨_, hi, hl, hj⟩
  · exact ⟨fun j j1 j2 _ => o j j1 j2, fun c c1 c2 c3 =>
      le_trans (by have := o c (by omega) c1; rwa [c2] at this) (o i c3 i2)⟩
  · constructor
    · intro j j1 j2 j3
      rw [hj j (by omega) (by omega), hj (j/2) (by omega) (by omega)]
      exact o j j1 (by omega)
    · intro c c1 c2 c3; omega

theorem rebuild_aux (act : Nat → α) (pick : Nat → Bool) : ∀ (l : List Nat) (h : VarHeap), Wf h → Ordered act h →
    (∀ v ∈ l, 1 ≤ v ∧ v < h.size) →
    ∃ h', l.foldlM (fun h vi => if pick vi then h.insertHeap (ltOf act) vi else pure h) h = some h' ∧ Wf h' ∧
      h'.size = h.size ∧ Ordered act h' ∧
      ∀ u, 1 ≤ u → u < h.size → (h'.idxs u ≤ h'.idxs 0 ↔ (u ∈ l ∧ pick u = true) ∨ h.idxs u ≤ h.idxs 0) := by
  intro l
  induction l with
  | nil => intro h w o _; exact ⟨h, rfl, w, rfl, o, fun u _ _ => by simp⟩
  | cons v l ih =>
    intro h w o hl
    have hv := hl v (by simp)
    simp only [List.foldlM_cons]
    cases hp : pick v
    · obtain ⟨h', e, w', s', o', m'⟩ := ih h w o (fun u hu => hl u (by simp [hu]))
      refine ⟨h', by simpa using e, w', s', o', fun u u1 u2 => ?_⟩
      rw [m' u u1 u2]
      constructor
      · rintro (⟨a, b⟩ | c)
        · exact .inl ⟨by simp [a], b⟩
        · exact .inr c
      · rintro (⟨a, b⟩ | c)
        · simp only [List.mem_cons] at a
          rcases a with rfl | a
          · rw [hp] at b; simp at b
          · exact .inl ⟨a, b⟩
        · exact .inr c
    · obtain ⟨h1, e1, w1, s1, m1⟩ := insertHeap_spec (ltOf act) w hv.1 hv.2
      have o1 := insertHeap_ordered act w o hv.1 hv.2 e1
      obtain ⟨h', e, w', s', o', m'⟩ := ih h1 w1 o1 (fun u hu => by rw [s1]; exact hl u (by simp [hu]))
      refine ⟨h', by simpa [e1] using e, w', by omega, o', fun u u1 u2 => ?_⟩
      rw [m' u u1 (by omega), m1 u u1 u2]
      constructor
      · rintro (⟨a, b⟩ | (rfl | c))
        · exact .inl ⟨by simp [a], b⟩
        · exact .inl ⟨by simp, hp⟩
        · exact .inr c
      · rintro (⟨a, b⟩ | c)
        · simp only [List.mem_cons] at a
          rcases a with rfl | a
          · exact .inr (.inl rfl)
          · exact .inl ⟨a, b⟩
        · exact .inr (.inr c)

end Splr.Heap
