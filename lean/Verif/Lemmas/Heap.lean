import Verif.Model.Heap
/-! Helper lemmas for C12, C13, C42. -/
namespace Splr.Heap

@[simp] theorem set_same (f : Nat → Nat) (i x : Nat) : set f i x i = x := by simp [set]
theorem set_ne (f : Nat → Nat) {i j : Nat} (x : Nat) (h : j ≠ i) : set f i x j = f j := by simp [set, h]

/-- `heap` and `idxs` are inverse permutations of `1 .. size-1` and the counter is in range. -/
structure Wf (h : VarHeap) : Prop where
  heap_range : ∀ i, 1 ≤ i → i < h.size → 1 ≤ h.heap i ∧ h.heap i < h.size
  idx_range : ∀ v, 1 ≤ v → v < h.size → 1 ≤ h.idxs v ∧ h.idxs v < h.size
  idx_heap : ∀ i, 1 ≤ i → i < h.size → h.idxs (h.heap i) = i
  heap_idx : ∀ v, 1 ≤ v → v < h.size → h.heap (h.idxs v) = v
  len_lt : h.idxs 0 < h.size

theorem Wf.size_pos {h : VarHeap} (w : Wf h) : 0 < h.size := by have := w.len_lt; omega

theorem wf_new (n init : Nat) (hi : init ≤ n) : Wf (VarHeap.new n init) where
  heap_range i h1 h2 := by simp [VarHeap.new] at *; omega
  idx_range v h1 h2 := by simp [VarHeap.new] at *; split <;> omega
  idx_heap i h1 h2 := by simp [VarHeap.new] at *; omega
  heap_idx i h1 h2 := by simp [VarHeap.new] at *; omega
  len_lt := by simp [VarHeap.new]; omega

theorem wf_clear {h : VarHeap} (w : Wf h) : Wf h.clear where
  heap_range i h1 h2 := ⟨h1, h2⟩
  idx_range i h1 h2 := ⟨h1, h2⟩
  idx_heap i h1 h2 := rfl
  heap_idx i h1 h2 := rfl
  len_lt := w.size_pos

theorem wf_expand {h : VarHeap} (w : Wf h) : Wf h.expand := by
  have hp := w.size_pos
  constructor
  · intro i h1 h2
    simp only [VarHeap.expand, set] at *
    split
    · omega
    · have := w.heap_range i h1 (by omega); omega
  · intro i h1 h2
    simp only [VarHeap.expand, set] at *
    split
    · omega
    · have := w.idx_range i h1 (by omega); omega
  · intro i h1 h2
    simp only [VarHeap.expand, set] at *
    by_cases hi : i = h.size
    · simp [hi]
    · have := w.heap_range i h1 (by omega)
      rw [if_neg hi, if_neg (by omega)]; exact w.idx_heap i h1 (by omega)
  · intro i h1 h2
    simp only [VarHeap.expand, set] at *
    by_cases hi : i = h.size
    · simp [hi]
    · have := w.idx_range i h1 (by omega)
      rw [if_neg hi, if_neg (by omega)]; exact w.heap_idx i h1 (by omega)
  · simp only [VarHeap.expand, set]
    rw [if_neg (by omega)]; have := w.len_lt; omega

/-- Exchange of the contents of two positions. -/
def sw (h : VarHeap) (p q : Nat) : VarHeap :=
  { h with heap := set (set h.heap q (h.heap p)) p (h.heap q),
           idxs := set (set h.idxs (h.heap p) q) (h.heap q) p }

theorem heap_inj {h : VarHeap} (w : Wf h) {i j : Nat} (hi : 1 ≤ i) (hi' : i < h.size) (hj : 1 ≤ j) (hj' : j < h.size)
    (e : h.heap i = h.heap j) : i = j := by
  have := w.idx_heap i hi hi'; rw [e, w.idx_heap j hj hj'] at this; exact this.symm

theorem sw_idxs {h : VarHeap} (p q v : Nat) :
    (sw h p q).idxs v = if v = h.heap q then p else if v = h.heap p then q else h.idxs v := by
  simp [sw, set]

theorem sw_heap {h : VarHeap} (p q i : Nat) :
    (sw h p q).heap i = if i = p then h.heap q else if i = q then h.heap p else h.heap i := by
  simp [sw, set]

theorem wf_sw {h : VarHeap} (w : Wf h) {p q : Nat} (hp : 1 ≤ p) (hp' : p < h.size) (hq : 1 ≤ q) (hq' : q < h.size) :
    Wf (sw h p q) := by
  have rp := w.heap_range p hp hp'
  have rq := w.heap_range q hq hq'
  constructor
  · intro i h1 h2
    rw [sw_heap]; split
    · exact rq
    · split
      · exact rp
      · exact w.heap_range i h1 h2
  · intro v h1 h2
    rw [sw_idxs]; split
    · exact ⟨hp, hp'⟩
    · split
      · exact ⟨hq, hq'⟩
      · exact w.idx_range v h1 h2
  · intro i h1 h2
    rw [sw_heap, sw_idxs]
    by_cases ip : i = p
    · subst ip; simp
    · by_cases iq : i = q
      · subst iq
        simp only [ip, if_false, if_true]
        rw [if_neg (fun e => ip (heap_inj w hq hq' hp hp' e.symm))]
      · simp only [ip, iq, if_false]
        rw [if_neg (fun e => iq (heap_inj w h1 h2 hq hq' e)), if_neg (fun e => ip (heap_inj w h1 h2 hp hp' e))]
        exact w.idx_heap i h1 h2
  · intro v h1 h2
    rw [sw_heap, sw_idxs]
    by_cases eq : v = h.heap q
    · simp [eq]
    · by_cases ep : v = h.heap p
      · subst ep
        simp only [eq, if_false, if_true]
        by_cases hpq : q = p
        · subst hpq; exact absurd rfl eq
        · simp [hpq]
      · simp only [eq, ep, if_false]
        have := w.heap_idx v h1 h2
        rw [if_neg (fun e => ep (by rw [e] at this; exact this.symm)),
            if_neg (fun e => eq (by rw [e] at this; exact this.symm))]
        exact this
  · show (sw h p q).idxs 0 < h.size
    rw [sw_idxs, if_neg (by omega), if_neg (by omega)]; exact w.len_lt

theorem sw_len {h : VarHeap} (w : Wf h) {p q : Nat} (hp : 1 ≤ p) (hp' : p < h.size) (hq : 1 ≤ q) (hq' : q < h.size) :
    (sw h p q).idxs 0 = h.idxs 0 := by
  have rp := w.heap_range p hp hp'
  have rq := w.heap_range q hq hq'
  rw [sw_idxs, if_neg (by omega), if_neg (by omega)]

/-- The heap with the element in hand put down. -/
def plug (h : VarHeap) (q v : Nat) : VarHeap := { h with heap := set h.heap q v, idxs := set h.idxs v q }

theorem put_eq {h : VarHeap} {q v : Nat} (hq : q < h.size) (hv : v < h.size) : h.put q v = some (plug h q v) := by
  simp [VarHeap.put, hq, hv, plug]

theorem plug_self {h : VarHeap} (w : Wf h) {q : Nat} (hq : 1 ≤ q) (hq' : q < h.size) : plug h q (h.heap q) = h := by
  unfold plug
  have e1 : set h.heap q (h.heap q) = h.heap := by funext j; simp only [set]; split <;> simp_all
  have e2 : set h.idxs (h.heap q) q = h.idxs := by
    funext j; simp only [set]; split
    · rename_i e; rw [e, w.idx_heap q hq hq']
    · rfl
  rw [e1, e2]

/-- Moving the hole from `q` to `p` is a swap of the plugged heap. -/
theorem plug_move {h : VarHeap} {p q vq : Nat} (hpq : p ≠ q) :
    plug (plug h q (h.heap p)) p vq = sw (plug h q vq) p q := by
  have e1 : (plug h q vq).heap p = h.heap p := by simp [plug, set, hpq]
  have e2 : (plug h q vq).heap q = vq := by simp [plug, set]
  unfold sw
  rw [e1, e2]
  unfold plug
  simp only [VarHeap.mk.injEq, true_and]
  constructor
  · funext j; simp only [set]; split <;> (try split) <;> simp_all
  · funext j; simp only [set]
    split
    · rfl
    · split <;> simp_all

/-- Same elements in the queue. -/
def SameMem (h h' : VarHeap) (N : Nat) : Prop := ∀ v, 1 ≤ v → v < h.size → (h'.idxs v ≤ N ↔ h.idxs v ≤ N)

theorem sameMem_sw {h : VarHeap} (w : Wf h) {p q N : Nat} (hp : 1 ≤ p) (hp' : p < h.size) (hq : 1 ≤ q)
    (hq' : q < h.size) (hpN : p ≤ N) (hqN : q ≤ N) : SameMem h (sw h p q) N := by
  intro v h1 h2
  rw [sw_idxs]
  split
  · rename_i e; rw [e, w.idx_heap q hq hq']; omega
  · split
    · rename_i e; rw [e, w.idx_heap p hp hp']; omega
    · rfl

theorem percUpLoop_spec (lt) : ∀ fuel (h : VarHeap) (q vq : Nat), Wf (plug h q vq) → 1 ≤ q → q < h.size →
    1 ≤ vq → vq < h.size → q < fuel →
    ∃ h', percUpLoop lt fuel h q vq = some h' ∧ Wf h' ∧ h'.size = h.size ∧ h'.idxs 0 = (plug h q vq).idxs 0 ∧
      ∀ N, q ≤ N → SameMem (plug h q vq) h' N := by
  intro fuel
  induction fuel with
  | zero => intros; omega
  | succ fuel ih =>
    intro h q vq w hq hq' hv hv' hf
    simp only [percUpLoop]
    by_cases hp : q / 2 = 0
    · simp only [hp, if_true, put_eq hq' hv']
      exact ⟨_, rfl, w, rfl, rfl, fun _ _ _ _ _ => Iff.rfl⟩
    · simp only [hp, if_false]
      have hpq : q / 2 < q := by omega
      have hps : q / 2 < h.size := by omega
      simp only [VarHeap.heapAt, hps, if_true, Option.bind_eq_bind, Option.bind_some]
      split
      · have eh : (plug h q vq).heap (q/2) = h.heap (q/2) := by simp [plug, set, Nat.ne_of_lt hpq]
        have rp := w.heap_range (q/2) (by omega) hps
        rw [eh] at rp
        have rp2 : h.heap (q/2) < h.size := rp.2
        rw [put_eq hq' rp2, Option.bind_some]
        have e := plug_move (h := h) (vq := vq) (Nat.ne_of_lt hpq)
        have w' : Wf (plug (plug h q (h.heap (q/2))) (q/2) vq) := by
          rw [e]; exact wf_sw w (by omega) hps hq hq'
        obtain ⟨h', e1, w1, s1, l1, m1⟩ := ih (plug h q (h.heap (q/2))) (q/2) vq w' (by omega) hps hv hv' (by omega)
        refine ⟨h', e1, w1, s1, ?_, ?_⟩
        · rw [l1, e, sw_len w (by omega) hps hq hq']
        · intro N hN v v1 v2
          rw [m1 N (by omega) v v1 v2, e]
          exact sameMem_sw w (by omega) hps hq hq' (by omega) hN v v1 v2
      · rw [put_eq hq' hv']
        exact ⟨_, rfl, w, rfl, rfl, fun _ _ _ _ _ => Iff.rfl⟩

theorem percUp_spec (lt) {h : VarHeap} (w : Wf h) {q : Nat} (hq : 1 ≤ q) (hq' : q < h.size) :
    ∃ h', h.percUp lt q = some h' ∧ Wf h' ∧ h'.size = h.size ∧ h'.idxs 0 = h.idxs 0 ∧
      ∀ N, q ≤ N → SameMem h h' N := by
  have r := w.heap_range q hq hq'
  have e := plug_self w hq hq'
  obtain ⟨h', e1, w1, s1, l1, m1⟩ := percUpLoop_spec lt (q+1) h q (h.heap q) (by rw [e]; exact w) hq hq' r.1 r.2 (by omega)
  rw [e] at l1 m1
  exact ⟨h', by simp [VarHeap.percUp, VarHeap.heapAt, hq', e1], w1, s1, l1, m1⟩

theorem percDownLoop_spec (lt) (n : Nat) : ∀ fuel (h : VarHeap) (i vi : Nat), Wf (plug h i vi) → 1 ≤ i → i < h.size →
    1 ≤ vi → vi < h.size → n - i < fuel → n < h.size →
    ∃ h', percDownLoop lt n fuel h i vi = some h' ∧ Wf h' ∧ h'.size = h.size ∧
      h'.idxs 0 = (plug h i vi).idxs 0 ∧ SameMem (plug h i vi) h' n := by
  intro fuel
  induction fuel with
  | zero => intros; omega
  | succ fuel ih =>
    intro h i vi w hi hi' hv hv' hf hn
    simp only [percDownLoop]
    by_cases hl : 2 * i < n
    · simp only [hl, if_true]
      have key : ∀ t, 2 * i ≤ t → t < n →
          ∃ h', (do let vc ← h.heapAt t
                    if lt vi vc then do
                      let h' ← h.put i vc
                      percDownLoop lt n fuel h' t vi
                    else h.put i vi) = some h' ∧ Wf h' ∧ h'.size = h.size ∧
            h'.idxs 0 = (plug h i vi).idxs 0 ∧ SameMem (plug h i vi) h' n := by
        intro t t1 t2
        have hts : t < h.size := by omega
        have hti : t ≠ i := by omega
        simp only [VarHeap.heapAt, hts, if_true, Option.bind_eq_bind, Option.bind_some]
        split
        · have eh : (plug h i vi).heap t = h.heap t := by simp [plug, set, hti]
          have rp := w.heap_range t (by omega) hts
          rw [eh] at rp
          have rp2 : h.heap t < h.size := rp.2
          rw [put_eq hi' rp2, Option.bind_some]
          have e := plug_move (h := h) (vq := vi) hti
          have w' : Wf (plug (plug h i (h.heap t)) t vi) := by
            rw [e]; exact wf_sw w (by omega) hts hi hi'
          obtain ⟨h', e1, w1, s1, l1, m1⟩ := ih (plug h i (h.heap t)) t vi w' (by omega) hts hv hv' (by omega) hn
          refine ⟨h', e1, w1, s1, ?_, ?_⟩
          · rw [l1, e, sw_len w (by omega) hts hi hi']
          · intro v v1 v2
            rw [m1 v v1 v2, e]
            exact sameMem_sw w (by omega) hts hi hi' (by omega) (by omega) v v1 v2
        · rw [put_eq hi' hv']
          exact ⟨_, rfl, w, rfl, rfl, fun _ _ _ => Iff.rfl⟩
      have hls : 2 * i < h.size := by omega
      by_cases hr : 2 * i + 1 < n
      · have hrs : 2 * i + 1 < h.size := by omega
        have k1 := key (2*i) (by omega) (by omega)
        have k2 := key (2*i+1) (by omega) (by omega)
        cases hc : lt (h.heap (2*i)) (h.heap (2*i+1))
        · simpa [VarHeap.heapAt, hls, hrs, hr, hc] using k1
        · simpa [VarHeap.heapAt, hls, hrs, hr, hc] using k2
      · simpa [VarHeap.heapAt, hls, hr] using key (2*i) (by omega) (by omega)
    · simp only [hl, if_false, put_eq hi' hv']
      exact ⟨_, rfl, w, rfl, rfl, fun _ _ _ => Iff.rfl⟩

theorem percDown_spec (lt) {h : VarHeap} (w : Wf h) {i : Nat} (hi : 1 ≤ i) (hi' : i < h.size) :
    ∃ h', h.percDown lt i = some h' ∧ Wf h' ∧ h'.size = h.size ∧ h'.idxs 0 = h.idxs 0 ∧
      SameMem h h' (h.idxs 0) := by
  have r := w.heap_range i hi hi'
  have e := plug_self w hi hi'
  have hz := w.size_pos
  obtain ⟨h', e1, w1, s1, l1, m1⟩ := percDownLoop_spec lt (h.idxs 0) (h.idxs 0 + 1) h i (h.heap i)
    (by rw [e]; exact w) hi hi' r.1 r.2 (by omega) w.len_lt
  rw [e] at l1 m1
  exact ⟨h', by simp [VarHeap.percDown, VarHeap.heapAt, VarHeap.idxAt, hi', hz, e1], w1, s1, l1, m1⟩

/-- `swap` is an exchange of positions followed by setting the counter. -/
theorem swap_eq {h : VarHeap} (w : Wf h) {i j n : Nat} (hi : 1 ≤ i) (hi' : i < h.size) (hj : 1 ≤ j) (hj' : j < h.size) :
    h.swap i j (h.heap i) (h.heap j) n = some { sw h i j with idxs := set (sw h i j).idxs 0 n } := by
  have ri := w.heap_range i hi hi'
  have rj := w.heap_range j hj hj'
  simp only [VarHeap.swap, hi', hj', ri.2, rj.2, and_self, if_true, Option.some.injEq]
  unfold sw
  simp only [VarHeap.mk.injEq, true_and, w.idx_heap i hi hi', w.idx_heap j hj hj']
  refine ⟨?_, trivial⟩
  funext k; simp only [set]; split <;> (try split) <;> simp_all

theorem swap_comm {h : VarHeap} (i j u v n : Nat) : h.swap i j u v n = h.swap j i v u n := by
  unfold VarHeap.swap
  by_cases hc : i < h.size ∧ j < h.size ∧ u < h.size ∧ v < h.size
  · rw [if_pos hc, if_pos (by omega)]
    simp only [Option.some.injEq, VarHeap.mk.injEq, true_and]
    constructor
    · funext k; simp only [set]; split <;> split <;> simp_all
    · funext k; simp only [set]; split <;> (try rfl); split <;> split <;> simp_all
  · rw [if_neg hc, if_neg (by omega)]

theorem wf_counter {h : VarHeap} (w : Wf h) {n : Nat} (hn : n < h.size) : Wf { h with idxs := set h.idxs 0 n } := by
  constructor
  · exact w.heap_range
  · intro v h1 h2; simp only; rw [set_ne _ _ (by omega)]; exact w.idx_range v h1 h2
  · intro i h1 h2
    have := w.heap_range i h1 h2
    simp only; rw [set_ne _ _ (by omega)]; exact w.idx_heap i h1 h2
  · intro i h1 h2
    simp only; rw [set_ne _ _ (by omega)]; exact w.heap_idx i h1 h2
  · simpa using hn

/-- Membership as the code decides it. -/
def Mem (h : VarHeap) (v : Nat) : Prop := h.idxs v ≤ h.idxs 0

theorem contains_eq {h : VarHeap} (w : Wf h) {v : Nat} (hv : v < h.size) :
    h.contains v = some (decide (h.idxs v ≤ h.idxs 0)) := by
  simp [VarHeap.contains, VarHeap.idxAt, hv, w.size_pos]

theorem insertPos_spec {h : VarHeap} (w : Wf h) {v : Nat} (hv : 1 ≤ v) (hv' : v < h.size) :
    ∃ i h', h.insertPos v = some (i, h') ∧ Wf h' ∧ h'.size = h.size ∧ 1 ≤ i ∧ i ≤ h'.idxs 0 ∧ h'.heap i = v ∧
      (∀ u, 1 ≤ u → u < h.size → (h'.idxs u ≤ h'.idxs 0 ↔ u = v ∨ h.idxs u ≤ h.idxs 0)) ∧
      ((h.idxs v ≤ h.idxs 0 ∧ h' = h) ∨
       (¬ h.idxs v ≤ h.idxs 0 ∧ i = h.idxs 0 + 1 ∧ h'.idxs 0 = h.idxs 0 + 1 ∧
        ∀ j, 1 ≤ j → j ≤ h.idxs 0 → h'.heap j = h.heap j)) := by
  have ri := w.idx_range v hv hv'
  have hz := w.size_pos
  unfold VarHeap.insertPos
  rw [contains_eq w hv']
  by_cases hc : h.idxs v ≤ h.idxs 0
  · refine ⟨h.idxs v, h, by simp [hc, VarHeap.idxAt, hv'], w, rfl, ri.1, hc, w.heap_idx v hv hv', ?_, .inl ⟨hc, rfl⟩⟩
    intro u u1 u2
    constructor
    · exact .inr
    · rintro (rfl | h)
      · exact hc
      · exact h
  · have hn : h.idxs 0 + 1 < h.size := by omega
    have hsw := swap_eq w (n := h.idxs 0 + 1) ri.1 ri.2 (j := h.idxs 0 + 1) (by omega) hn
    rw [w.heap_idx v hv hv'] at hsw
    have wsw := wf_sw w ri.1 ri.2 (q := h.idxs 0 + 1) (by omega) hn
    refine ⟨h.idxs 0 + 1, _, by simp [hc, VarHeap.idxAt, VarHeap.heapAt, hv', hz, hn, hsw],
      wf_counter wsw hn, rfl, by omega, by simp, ?_, ?_, .inr ⟨hc, rfl, by simp, ?_⟩⟩
    · simp only [sw_heap]
      split
      · rename_i e; rw [e, w.heap_idx v hv hv']
      · simp [w.heap_idx v hv hv']
    · intro u u1 u2
      simp only [set_same]
      rw [set_ne _ _ (by omega), sw_idxs, w.heap_idx v hv hv']
      split
      · rename_i e
        have : h.idxs u = h.idxs 0 + 1 := by rw [e, w.idx_heap _ (by omega) hn]
        constructor
        · intro hh
          have : h.idxs v = h.idxs u := by omega
          have e3 := w.heap_idx v hv hv'
          rw [this, w.heap_idx u u1 u2] at e3
          exact .inl e3
        · rintro (rfl | hh)
          · omega
          · omega
      · split
        · rename_i e; simp [e]
        · rename_i e1 e2
          simp only [e2, false_or]
          constructor
          · intro hh
            rcases Nat.lt_or_ge (h.idxs u) (h.idxs 0 + 1) with hlt | hge
            · omega
            · have e3 : h.idxs u = h.idxs 0 + 1 := by omega
              exact absurd (by rw [← e3, w.heap_idx u u1 u2]) e1
          · omega
    · intro j j1 j2
      simp only [sw_heap]
      rw [if_neg (by omega), if_neg (by omega)]

theorem insertHeap_spec (lt) {h : VarHeap} (w : Wf h) {v : Nat} (hv : 1 ≤ v) (hv' : v < h.size) :
    ∃ h', h.insertHeap lt v = some h' ∧ Wf h' ∧ h'.size = h.size ∧
      (∀ u, 1 ≤ u → u < h.size → (h'.idxs u ≤ h'.idxs 0 ↔ u = v ∨ h.idxs u ≤ h.idxs 0)) := by
  obtain ⟨i, h1, e1, w1, s1, i1, i2, -, m1, -⟩ := insertPos_spec w hv hv'
  obtain ⟨h2, e2, w2, s2, l2, m2⟩ := percUp_spec lt w1 i1 (by have := w1.len_lt; omega)
  refine ⟨h2, by simp [VarHeap.insertHeap, e1, e2], w2, by omega, ?_⟩
  intro u u1 u2
  rw [l2, m2 (h1.idxs 0) i2 u u1 (by omega)]
  exact m1 u u1 u2

theorem insertOcc_spec (lt) {h : VarHeap} (w : Wf h) {v : Nat} (b : Bool) (hv : 1 ≤ v) (hv' : v < h.size) :
    ∃ h', h.insertOcc lt v b = some h' ∧ Wf h' ∧ h'.size = h.size ∧
      (∀ u, 1 ≤ u → u < h.size → (h'.idxs u ≤ h'.idxs 0 ↔ u = v ∨ h.idxs u ≤ h.idxs 0)) := by
  have ri := w.idx_range v hv hv'
  unfold VarHeap.insertOcc
  rw [contains_eq w hv']
  by_cases hc : h.idxs v ≤ h.idxs 0
  · have hm : ∀ u, h.idxs u ≤ h.idxs 0 ↔ u = v ∨ h.idxs u ≤ h.idxs 0 := by
      intro u; constructor
      · exact .inr
      · rintro (rfl | h)
        · exact hc
        · exact h
    cases b
    · obtain ⟨h2, e2, w2, s2, l2, m2⟩ := percDown_spec lt w ri.1 ri.2
      refine ⟨h2, by simp [hc, VarHeap.idxAt, hv', e2], w2, s2, ?_⟩
      intro u u1 u2; rw [l2, m2 u u1 u2]; exact hm u
    · obtain ⟨h2, e2, w2, s2, l2, m2⟩ := percUp_spec lt w ri.1 ri.2
      refine ⟨h2, by simp [hc, VarHeap.idxAt, hv', e2], w2, s2, ?_⟩
      intro u u1 u2; rw [l2, m2 _ hc u u1 u2]; exact hm u
  · obtain ⟨i, h1, e1, w1, s1, i1, i2, -, m1, -⟩ := insertPos_spec w hv hv'
    obtain ⟨h2, e2, w2, s2, l2, m2⟩ := percUp_spec lt w1 i1 (by have := w1.len_lt; omega)
    refine ⟨h2, by simp [hc, e1, e2], w2, by omega, ?_⟩
    intro u u1 u2
    rw [l2, m2 (h1.idxs 0) i2 u u1 (by omega)]
    exact m1 u u1 u2

theorem updateHeap_spec (lt) {h : VarHeap} (w : Wf h) {v : Nat} (hv : 1 ≤ v) (hv' : v < h.size) :
    ∃ h', h.updateHeap lt v = some h' ∧ Wf h' ∧ h'.size = h.size ∧
      (∀ u, 1 ≤ u → u < h.size → (h'.idxs u ≤ h'.idxs 0 ↔ h.idxs u ≤ h.idxs 0)) := by
  have ri := w.idx_range v hv hv'
  unfold VarHeap.updateHeap
  rw [contains_eq w hv']
  by_cases hc : h.idxs v ≤ h.idxs 0
  · obtain ⟨h2, e2, w2, s2, l2, m2⟩ := percUp_spec lt w ri.1 ri.2
    refine ⟨h2, by simp [hc, VarHeap.idxAt, hv', e2], w2, s2, ?_⟩
    intro u u1 u2; rw [l2, m2 _ hc u u1 u2]
  · exact ⟨h, by simp [hc, VarHeap.idxAt, hv'], w, rfl, fun _ _ _ => Iff.rfl⟩

/-- Removing position `i` by exchanging it with the last queued position. -/
theorem dropAt_spec {h : VarHeap} (w : Wf h) {i : Nat} (hi : 1 ≤ i) (hin : i ≤ h.idxs 0) :
    ∃ h', h.swap (h.idxs 0) i (h.heap (h.idxs 0)) (h.heap i) (h.idxs 0 - 1) = some h' ∧ Wf h' ∧ h'.size = h.size ∧
      h'.idxs 0 = h.idxs 0 - 1 ∧
      (∀ u, 1 ≤ u → u < h.size → (h'.idxs u ≤ h.idxs 0 - 1 ↔ u ≠ h.heap i ∧ h.idxs u ≤ h.idxs 0)) := by
  have hl := w.len_lt
  have hi' : i < h.size := by omega
  have wsw := wf_sw w (p := h.idxs 0) (q := i) (by omega) hl hi hi'
  refine ⟨_, swap_eq w (by omega) hl hi hi', wf_counter wsw (show h.idxs 0 - 1 < h.size by omega), rfl, by simp, ?_⟩
  intro u u1 u2
  simp only
  rw [set_ne _ _ (by omega), sw_idxs]
  split
  · rename_i e; simp [e]; omega
  · rename_i ne
    split
    · rename_i e
      rw [e, w.idx_heap _ (by omega) hl]
      have hne : i ≠ h.idxs 0 := by rintro rfl; exact ne e
      rw [e] at ne
      simp only [ne, ne_eq, not_false_eq_true, true_and]; omega
    · rename_i ne2
      have : h.idxs u ≠ h.idxs 0 := by
        intro e; apply ne2; rw [← e, w.heap_idx u u1 u2]
      simp only [ne, ne_eq, not_false_eq_true, true_and]; omega

theorem removeHeap_spec (lt) {h : VarHeap} (w : Wf h) {v : Nat} (hv : 1 ≤ v) (hv' : v < h.size) :
    ∃ h', h.removeHeap lt v = some h' ∧ Wf h' ∧ h'.size = h.size ∧
      (∀ u, 1 ≤ u → u < h.size → (h'.idxs u ≤ h'.idxs 0 ↔ u ≠ v ∧ h.idxs u ≤ h.idxs 0)) := by
  have ri := w.idx_range v hv hv'
  have hz := w.size_pos
  have hl := w.len_lt
  unfold VarHeap.removeHeap
  by_cases hc : h.idxs 0 < h.idxs v
  · refine ⟨h, by simp [VarHeap.idxAt, hv', hz, hc], w, rfl, ?_⟩
    intro u _ _
    constructor
    · intro hh; refine ⟨?_, hh⟩; rintro rfl; omega
    · exact (·.2)
  · obtain ⟨h1, e1, w1, s1, l1, m1⟩ := dropAt_spec w ri.1 (by omega)
    rw [w.heap_idx v hv hv'] at e1 m1
    have hn0 : ¬ h.idxs 0 = 0 := by omega
    by_cases hgt : 1 < h1.idxs 0
    · obtain ⟨h2, e2, w2, s2, l2, m2⟩ := percDown_spec lt w1 ri.1 (by omega)
      refine ⟨h2, by simp [VarHeap.idxAt, VarHeap.heapAt, VarHeap.len, hv', hz, hc, hl, hn0, e1, hgt, e2], w2, by omega, ?_⟩
      intro u u1 u2
      rw [l2, m2 u u1 (by omega), l1]; exact m1 u u1 u2
    · refine ⟨h1, by simp [VarHeap.idxAt, VarHeap.heapAt, VarHeap.len, hv', hz, hc, hl, hn0, e1, hgt], w1, by omega, ?_⟩
      intro u u1 u2
      rw [l1]; exact m1 u u1 u2

theorem rootCommon (lt) {h : VarHeap} (w : Wf h) (hn : 0 < h.idxs 0) :
    ∃ h', (do let h ← h.swap (h.idxs 0) 1 (h.heap (h.idxs 0)) (h.heap 1) (h.idxs 0 - 1)
              if 1 < h.len then
                let h ← h.percDown lt 1
                pure (v, h)
              else pure (v, h)) = some (v, h') ∧ Wf h' ∧ h'.size = h.size ∧
      (∀ u, 1 ≤ u → u < h.size → (h'.idxs u ≤ h'.idxs 0 ↔ u ≠ h.heap 1 ∧ h.idxs u ≤ h.idxs 0)) := by
  obtain ⟨h1, e1, w1, s1, l1, m1⟩ := dropAt_spec w (i := 1) (by omega) (by omega)
  have hl := w.len_lt
  rw [e1]
  by_cases hgt : 1 < h1.idxs 0
  · obtain ⟨h2, e2, w2, s2, l2, m2⟩ := percDown_spec lt w1 (i := 1) (by omega) (by omega)
    refine ⟨h2, by simp [VarHeap.len, hgt, e2], w2, by omega, ?_⟩
    intro u u1 u2
    rw [l2, m2 u u1 (by omega), l1]; exact m1 u u1 u2
  · refine ⟨h1, by simp [VarHeap.len, hgt], w1, by omega, ?_⟩
    intro u u1 u2
    rw [l1]; exact m1 u u1 u2

theorem getRoot_spec (lt) {h : VarHeap} (w : Wf h) (hn : 0 < h.idxs 0) :
    ∃ h', h.getRoot lt = some (h.heap 1, h') ∧ Wf h' ∧ h'.size = h.size ∧
      (∀ u, 1 ≤ u → u < h.size → (h'.idxs u ≤ h'.idxs 0 ↔ u ≠ h.heap 1 ∧ h.idxs u ≤ h.idxs 0)) := by
  obtain ⟨h1, e1, w1, s1, m1⟩ := rootCommon (v := h.heap 1) lt w hn
  have hl := w.len_lt
  refine ⟨h1, ?_, w1, s1, m1⟩
  rw [← e1]
  have h0 : ¬ h.idxs 0 = 0 := by omega
  have h1s : 1 < h.size := by omega
  simp [VarHeap.getRoot, VarHeap.heapAt, VarHeap.idxAt, hl, h0, h1s, w.size_pos]

theorem getRootOcc_spec (lt) {h : VarHeap} (w : Wf h) (hn : 0 < h.idxs 0) :
    ∃ h', h.getRootOcc lt = some (h.heap 1, h') ∧ Wf h' ∧ h'.size = h.size ∧
      (∀ u, 1 ≤ u → u < h.size → (h'.idxs u ≤ h'.idxs 0 ↔ u ≠ h.heap 1 ∧ h.idxs u ≤ h.idxs 0)) := by
  obtain ⟨h1, e1, w1, s1, m1⟩ := rootCommon (v := h.heap 1) lt w hn
  have hl := w.len_lt
  refine ⟨h1, ?_, w1, s1, m1⟩
  rw [← e1]
  have h0 : ¬ h.idxs 0 = 0 := by omega
  have h1s : 1 < h.size := by omega
  simp [VarHeap.getRootOcc, VarHeap.heapAt, VarHeap.idxAt, hl, h0, h1s, w.size_pos]

end Splr.Heap
