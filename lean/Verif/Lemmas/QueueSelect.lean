import Verif.Lemmas.Queue
import Mathlib.Order.Interval.Finset.Nat
/-!
# Selection from the array queue
-/
namespace Splr
open Heap Stk

namespace QRel

theorem empty_iff {s : Stk} {x : QStk} (h : QRel s x) : x.q.len = 0 ↔ s.heap = [] := by
  constructor
  · intro hl
    rw [List.eq_nil_iff_forall_not_mem]
    intro v hv
    have hd := h.dom.hp v hv
    obtain ⟨i, i1, i2, i3, -, -⟩ := h.rep.position v hd.1 (by omega)
    have := (h.rep.prefixed i i1 i2).2 (by rw [i3]; exact hv)
    omega
  · intro hh
    by_contra hl
    have hc := h.rep.count
    have := (h.rep.prefixed 1 (by omega) (by omega)).1 (by omega)
    rw [hh] at this
    simp at this

theorem root {s : Stk} {x : QStk} (h : QRel s x) (hne : s.heap ≠ []) :
    ∃ v y, x.heapRootQ = some (v, y) ∧ v ∈ s.heap ∧ QRel { s with heap := s.heap.filter (· ≠ v) } y := by
  have hl : x.q.len ≠ 0 := fun e => hne (h.empty_iff.1 e)
  obtain ⟨w, hw⟩ := List.exists_mem_of_ne_nil _ hne
  have hd := h.dom.hp w hw
  obtain ⟨o, h', e, r, ho⟩ := step_represents (x.act 0) h.rep .root ⟨w, hd.1, by omega, hw⟩
  simp only [VarHeap.step, Option.map_eq_some_iff] at e
  obtain ⟨⟨v, h1⟩, e1, e2⟩ := e
  cases e2
  refine ⟨v, { x with q := h1, act := fun k => x.act (k + 1) }, by simp [QStk.heapRootQ, hl, e1], ho.1, ⟨?_, ?_, ?_⟩⟩
  · rw [← h.same]
  · refine r.congr fun u _ _ => ?_
    simp [specStep, and_comm]
  · exact ⟨h.dom.tr, h.dom.sv, fun u hu => h.dom.hp u (List.mem_filter.1 hu).1, h.dom.nd.filter _⟩

end QRel

/-- The variable has no value and is not eliminated. -/
def Und (s : Stk) (v : Nat) : Prop := s.assign v = none ∧ s.elim v = false

theorem QRel.und {s : Stk} {x : QStk} (h : QRel s x) (v : Nat) : (x.s.assign v = none ∧ x.s.elim v = false) ↔ Und s v := by
  unfold Und
  have h1 : x.s.assign = s.assign := by rw [← h.same]
  have h2 : x.s.elim = s.elim := by rw [← h.same]
  rw [h1, h2]

theorem heapRoot_pick {s : Stk} {pick : List Nat → Nat} {v : Nat} (hv : v ∈ s.heap) (hp : pick s.heap = v) :
    s.heapRoot pick = some (v, { s with heap := s.heap.filter (· ≠ v) }) := by
  have hne : s.heap ≠ [] := List.ne_nil_of_mem hv
  unfold heapRoot choose
  simp [hne, hp, hv]

theorem filter_lt {l : List Nat} {v : Nat} (hv : v ∈ l) : (l.filter (· ≠ v)).length < l.length :=
  List.length_filter_lt_length_iff_exists.2 ⟨v, hv, by simp⟩

/-- If there is an undecided variable in the queue. -/
theorem select_queue : ∀ (N : Nat) {s : Stk} {x : QStk}, s.heap.length ≤ N → QRel s x → ∀ {u : Nat}, u ∈ s.heap → Und s u → ∀ {n : Nat}, s.heap.length ≤ n →
    ∃ (pick : List Nat → Nat) (v : Nat) (s' : Stk) (y : QStk), QStk.selectVarQ n x = some (v, y) ∧ QRel s' y ∧ Und s v ∧ 1 ≤ v ∧ v ≤ s.numVars ∧
      ∀ pick' : List Nat → Nat, (∀ L, L.length ≤ s.heap.length → (∃ w ∈ L, Und s w) → pick' L = pick L) → ∀ m, s.heap.length ≤ m → selectVar pick' m s = some (v, s')
  | 0, s, x, hN, _, u, hu, _, _, _ => by
    have := List.length_pos_of_mem hu; omega
  | N + 1, s, x, hN, h, u, hu, hU, n, hn => by
    have hpos := List.length_pos_of_mem hu
    obtain ⟨v, y, e, hv, h1⟩ := h.root (List.ne_nil_of_mem hu)
    obtain ⟨n, rfl⟩ : ∃ k, n = k + 1 := ⟨n - 1, by omega⟩
    have hlt := filter_lt hv
    by_cases hUv : Und s v
    · refine ⟨fun _ => v, v, _, y, ?_, h1, hUv, (h.dom.hp v hv).1, (h.dom.hp v hv).2, ?_⟩
      · unfold QStk.selectVarQ
        rw [e]
        simp only []
        rw [if_pos ((h1.und v).2 hUv)]
      · intro pick' hp m hm
        obtain ⟨m, rfl⟩ : ∃ k, m = k + 1 := ⟨m - 1, by omega⟩
        unfold selectVar
        rw [heapRoot_pick hv (hp _ (Nat.le_refl _) ⟨u, hu, hU⟩)]
        exact if_pos hUv
    · have hne : u ≠ v := fun h => hUv (h ▸ hU)
      obtain ⟨pick1, w, s', z, e1, h2, h3, h4, h5, h6⟩ := select_queue N (s := { s with heap := s.heap.filter (· ≠ v) }) (x := y) (by simp only []; omega) h1 (u := u)
        (List.mem_filter.2 ⟨hu, by simpa using hne⟩) hU (n := n) (by simp only []; omega)
      refine ⟨fun L => if L.length = s.heap.length then v else pick1 L, w, s', z, ?_, h2, h3, h4, h5, ?_⟩
      · unfold QStk.selectVarQ
        rw [e]
        simp only []
        rw [if_neg (fun hh => hUv ((h1.und v).1 hh)), e1]
      · intro pick' hp m hm
        obtain ⟨m, rfl⟩ : ∃ k, m = k + 1 := ⟨m - 1, by omega⟩
        unfold selectVar
        rw [heapRoot_pick hv (by rw [hp _ (Nat.le_refl _) ⟨u, hu, hU⟩]; simp)]
        refine (if_neg hUv).trans (h6 pick' (fun L hL hw => ?_) m (by simp only []; omega))
        simp only [] at hL
        rw [hp L (by omega) hw]; exact if_neg (by omega)

/-- Giving back the saved trail to an empty queue first. -/
theorem select_cleared {s : Stk} (hh : s.heap = []) {pick : List Nat → Nat} {m : Nat} (hc : s.clearSaved.heap ≠ []) : selectVar pick m s = selectVar pick m s.clearSaved := by
  cases m with
  | zero => rfl
  | succ m =>
    unfold selectVar
    have : s.heapRoot pick = s.clearSaved.heapRoot pick := by
      unfold heapRoot
      simp only [hh, if_pos, if_neg hc]
    rw [this]

/-- If there is one in the queue or in the saved trail. -/
theorem select_any : ∀ (N : Nat) {s : Stk} {x : QStk}, s.heap.length ≤ N → QRel s x → (∀ u ∈ s.heap, ¬ Und s u) → ∀ {u : Nat}, u ∈ s.saved.map Lit.var → Und s u →
    ∀ {n : Nat}, s.heap.length + ({ s with heap := [] } : Stk).clearSaved.heap.length ≤ n →
    ∃ (pick : List Nat → Nat) (v : Nat) (s' : Stk) (y : QStk), QStk.selectVarQ n x = some (v, y) ∧ QRel s' y ∧ Und s v ∧ 1 ≤ v ∧ v ≤ s.numVars ∧
      ∀ pick' : List Nat → Nat, (∀ L, L.length ≤ s.heap.length ∨ (∃ w ∈ L, Und s w) → pick' L = pick L) →
        ∀ m, s.heap.length + ({ s with heap := [] } : Stk).clearSaved.heap.length ≤ m → selectVar pick' m s = some (v, s') := by
  classical
  intro N
  induction N with
  | zero =>
    intro s x hN h hno u hu hU n hn
    have hh : s.heap = [] := List.length_eq_zero_iff.1 (Nat.le_zero.1 hN)
    have hs : ({ s with heap := [] } : Stk) = s := by rw [← hh]
    rw [hs] at hn ⊢
    have hmem : u ∈ s.clearSaved.heap := by
      show u ∈ (s.insertHeaps (s.saved.map Lit.var)).heap
      rw [mem_insertHeaps]; exact .inr hu
    obtain ⟨x1, e1, h1, s1⟩ := h.clearSaved
    obtain ⟨pick, v, s', y, e2, h2, h3, h4, h5, h6⟩ := select_queue _ (Nat.le_refl _) h1 hmem hU (n := n) (by omega)
    refine ⟨pick, v, s', y, ?_, h2, h3, h4, h5, ?_⟩
    · rw [← e2]
      cases n with
      | zero => rfl
      | succ n =>
        unfold QStk.selectVarQ
        have : x.heapRootQ = x1.heapRootQ := by
          unfold QStk.heapRootQ
          have hne : x1.q.len ≠ 0 := fun e => by
            have := h1.empty_iff.1 e; rw [this] at hmem; simp at hmem
          rw [if_pos (h.empty_iff.2 hh), if_neg hne, e1]
        rw [this]
    · intro pick' hp m hm
      rw [select_cleared hh (List.ne_nil_of_mem hmem)]
      exact h6 pick' (fun L _ hw => hp L (.inr hw)) m (by omega)
  | succ N ih =>
    intro s x hN h hno u hu hU n hn
    by_cases hh : s.heap = []
    · exact ih (by rw [hh]; simp) h hno hu hU hn
    · obtain ⟨v, y, e, hv, h1⟩ := h.root hh
      have hlt := filter_lt hv
      have hUv := hno v hv
      obtain ⟨n, rfl⟩ : ∃ k, n = k + 1 := ⟨n - 1, by have := List.length_pos_of_mem hv; omega⟩
      obtain ⟨pick1, w, s', z, e1, h2, h3, h4, h5, h6⟩ := ih (s := { s with heap := s.heap.filter (· ≠ v) }) (x := y) (by simp only []; omega) h1
        (fun a ha => hno a (List.mem_filter.1 ha).1) hu hU (n := n) (by simp only []; omega)
      refine ⟨fun L => if (∃ w ∈ L, Und s w) then pick1 L else if L.length = s.heap.length then v else pick1 L, w, s', z, ?_, h2, h3, h4, h5, ?_⟩
      · unfold QStk.selectVarQ
        rw [e]
        simp only []
        rw [if_neg (fun hh => hUv ((h1.und v).1 hh)), e1]
      · intro pick' hp m hm
        obtain ⟨m, rfl⟩ : ∃ k, m = k + 1 := ⟨m - 1, by have := List.length_pos_of_mem hv; omega⟩
        unfold selectVar
        rw [heapRoot_pick hv (by rw [hp _ (.inl (Nat.le_refl _))]; exact (if_neg (by rintro ⟨a, ha, hb⟩; exact hno a ha hb)).trans (if_pos rfl))]
        refine (if_neg hUv).trans (h6 pick' (fun L hL => ?_) m (by simp only []; omega))
        rcases hL with hL | hL
        · simp only [] at hL
          rw [hp L (.inl (by omega))]
          simp only []
          split
          · rfl
          · rw [if_neg (by omega)]
        · have hL' : ∃ w ∈ L, Und s w := hL
          rw [hp L (.inr hL')]; exact if_pos hL'

theorem length_range {l : List Nat} {n : Nat} (h : ∀ v ∈ l, 1 ≤ v ∧ v ≤ n) (hn : l.Nodup) : l.length ≤ n := by
  have : l.toFinset ⊆ Finset.Icc 1 n := fun v hv => Finset.mem_Icc.2 (h v (List.mem_toFinset.1 hv))
  have := Finset.card_le_card this
  rw [List.toFinset_card_of_nodup hn, Nat.card_Icc] at this
  omega

theorem length_inserts : ∀ (vs : List Nat) (s : Stk), (s.insertHeaps vs).heap.length ≤ s.heap.length + vs.length
  | [], s => Nat.le_add_right _ _
  | v :: vs, s => by
    have h := length_inserts vs (s.insertHeap v)
    have h2 : (s.insertHeap v).heap.length ≤ s.heap.length + 1 := by
      unfold insertHeap
      by_cases hv : v ∈ s.heap
      · simp [List.insert_of_mem hv]
      · simp [List.insert_of_not_mem hv]
    have h3 : (s.insertHeaps (v :: vs)).heap = ((s.insertHeap v).insertHeaps vs).heap := rfl
    rw [h3, List.length_cons]; omega

/-- `select_var` of the code is `select_var` of the model for some rule. -/
theorem select_sim {s : Stk} {x : QStk} (h : QRel s x) {u : Nat} (hu : u ∈ s.heap ∨ u ∈ s.saved.map Lit.var) (hU : Und s u) :
    ∃ (pick : List Nat → Nat) (v : Nat) (s' : Stk) (y : QStk), QStk.selectVarQ x.selectFuelQ x = some (v, y) ∧ selectVar pick s.selectFuel s = some (v, s') ∧
      QRel s' y ∧ Und s v ∧ 1 ≤ v ∧ v ≤ s.numVars := by
  have hl := length_range h.dom.hp h.dom.nd
  have hnv : x.s.numVars = s.numVars := by rw [← h.same]
  by_cases hex : ∃ w ∈ s.heap, Und s w
  · obtain ⟨w, hw, hW⟩ := hex
    obtain ⟨pick, v, s', y, e, h1, h2, h3, h4, h5⟩ := select_queue _ (Nat.le_refl _) h hw hW (n := x.selectFuelQ) (by unfold QStk.selectFuelQ; omega)
    exact ⟨pick, v, s', y, e, h5 pick (fun _ _ _ => rfl) _ (by unfold selectFuel; omega), h1, h2, h3, h4⟩
  · have hno : ∀ w ∈ s.heap, ¬ Und s w := fun w hw hW => hex ⟨w, hw, hW⟩
    have hus : u ∈ s.saved.map Lit.var := by
      rcases hu with hu | hu
      · exact absurd hU (hno u hu)
      · exact hu
    have hk1 : ({ s with heap := [] } : Stk).clearSaved.heap.length ≤ s.saved.length := by
      have := length_inserts (s.saved.map Lit.var) { s with heap := [] }
      rw [List.length_map] at this
      exact Nat.le_trans this (by simp)
    have hk2 : ({ s with heap := [] } : Stk).clearSaved.heap.length ≤ s.numVars := by
      refine length_range (fun v hv => ?_) (QRel.nodup_inserts (s := { s with heap := [] }) List.nodup_nil _)
      have hv : v ∈ (({ s with heap := [] } : Stk).insertHeaps (s.saved.map Lit.var)).heap := hv
      rw [mem_insertHeaps] at hv
      rcases hv with hv | hv
      · simp at hv
      · obtain ⟨l, hl, rfl⟩ := List.mem_map.1 hv; exact h.dom.sv l hl
    obtain ⟨pick, v, s', y, e, h1, h2, h3, h4, h5⟩ := select_any _ (Nat.le_refl _) h hno hus hU (n := x.selectFuelQ) (by unfold QStk.selectFuelQ; omega)
    exact ⟨pick, v, s', y, e, h5 pick (fun _ _ => rfl) _ (by unfold selectFuel; omega), h1, h2, h3, h4⟩

end Splr
