import Verif.Model.Misc
import Mathlib.Data.Finset.Card
import Mathlib.Order.Compare
/-!
# C32 (LBD), C39 (soft limit), C40 (literal scan), C41 (unordered deletion), C47 (ordering proxy)
-/
namespace Splr

/-! ## C41 -/

theorem swapRemove_perm {α} (l : List α) (i : Nat) (h : i < l.length) : (swapRemove l i).Perm (l.eraseIdx i) := by
  unfold swapRemove
  rcases List.eq_nil_or_concat l with rfl | ⟨l', x, rfl⟩
  · simp at h
  · rw [List.concat_eq_append] at h ⊢
    simp only [List.getLast?_append, List.getLast?_singleton, Option.some_or]
    simp at h
    rcases Nat.lt_or_ge i l'.length with hlt | hge
    · rw [List.set_append_left _ _ hlt, List.dropLast_concat, List.eraseIdx_append_of_lt_length hlt]
      have h1 := List.set_eq_take_append_cons_drop (l := l') (i := i) (a := x)
      rw [if_pos hlt] at h1
      rw [h1, List.eraseIdx_eq_take_drop_succ]
      have := @List.perm_middle α x (l'.take i) (l'.drop (i+1))
      refine this.trans ?_
      exact (List.perm_append_singleton x _).symm
    · have : i = l'.length := by omega
      subst this
      rw [List.set_append_right _ _ (by omega), List.eraseIdx_append_of_length_le (by omega)]
      simp

/-- **C41.** `delete_unstable` leaves exactly the elements of the list without its first match (as a multiset);
nothing changes when there is no match. -/
theorem C41_delete_unstable {α} (l : List α) (p : α → Bool) : (deleteUnstable l p).Perm (l.eraseP p) := by
  unfold deleteUnstable
  cases h : l.findIdx? p with
  | none => rw [List.eraseP_of_forall_not]; intro a ha; rw [List.findIdx?_eq_none_iff] at h; simpa using h a ha
  | some i =>
    obtain ⟨hi, h1, h2⟩ := List.findIdx?_eq_some_iff_getElem.1 h
    refine (swapRemove_perm l i hi).trans ?_
    rw [List.eraseP_eq_eraseIdx, h]

/-- **C41.** The number of elements drops by one exactly when some element matches. -/
theorem C41_length {α} (l : List α) (p : α → Bool) :
    (deleteUnstable l p).length = l.length - (if l.any p then 1 else 0) := by
  rw [(C41_delete_unstable l p).length_eq, List.length_eraseP]; split <;> rfl

example : deleteUnstable [1, 2, 3, 4, 2] (· == 2) = [1, 2, 3, 4] ∧ deleteUnstable [5, 2, 3, 4, 6] (· == 2) = [5, 6, 3, 4] := by
  decide

/-! ## C47 -/
namespace Proxy
variable {α β : Type} [LinearOrder α]

/-- **C47.** `cmp` never panics. -/
theorem C47_total (a b : OrderedProxy α β) : ∃ o, a.cmp b = some o := by
  rcases a with ⟨_ | x, _⟩ <;> rcases b with ⟨_ | y, _⟩ <;> simp [OrderedProxy.cmp, F.partialCmp, F.isNan]

/-- **C47.** `cmp` compares the keys, NaN is above every number and equal to NaN. -/
theorem C47_by_key (x y : α) (b c : β) :
    OrderedProxy.cmp ⟨.val x, b⟩ ⟨.val y, c⟩ = some (compare x y) ∧
    OrderedProxy.cmp (⟨.nan, b⟩ : OrderedProxy α β) ⟨.val y, c⟩ = some .gt ∧
    OrderedProxy.cmp ⟨.val x, b⟩ (⟨.nan, c⟩ : OrderedProxy α β) = some .lt ∧
    OrderedProxy.cmp (⟨.nan, b⟩ : OrderedProxy α β) ⟨.nan, c⟩ = some .eq := by
  simp [OrderedProxy.cmp, F.partialCmp, F.isNan]

theorem compare_swap_eq (x y : α) : compare y x = (compare x y).swap := by
  rcases lt_trichotomy x y with h | h | h
  · rw [compare_lt_iff_lt.2 h, compare_gt_iff_gt.2 h]; rfl
  · subst h; rw [compare_eq_iff_eq.2 rfl]; rfl
  · rw [compare_gt_iff_gt.2 h, compare_lt_iff_lt.2 h]; rfl

/-- **C47.** Reversing the operands reverses the result. -/
theorem C47_antisymmetric (a b : OrderedProxy α β) : b.cmp a = (a.cmp b).map Ordering.swap := by
  rcases a with ⟨_ | x, _⟩ <;> rcases b with ⟨_ | y, _⟩ <;>
    simp [OrderedProxy.cmp, F.partialCmp, F.isNan, Ordering.swap]
  exact compare_swap_eq x y

/-- **C47.** "Not greater" is transitive, so sorting is well defined. -/
theorem C47_transitive (a b c : OrderedProxy α β) (h1 : a.cmp b ≠ some .gt) (h2 : b.cmp c ≠ some .gt) :
    a.cmp c ≠ some .gt := by
  rcases a with ⟨_ | x, _⟩ <;> rcases b with ⟨_ | y, _⟩ <;> rcases c with ⟨_ | z, _⟩ <;>
    simp_all [OrderedProxy.cmp, F.partialCmp, F.isNan, compare_gt_iff_gt]
  exact le_trans h1 h2

/-- `==` is *not* the equality of this order: entries with equal keys and different bodies compare as equal but are
not `==`, and a NaN entry is not `==` to itself. -/
theorem C47_eq_is_finer : ∃ a b : OrderedProxy Nat Nat, a.cmp b = some .eq ∧ a.eq b = false := by
  refine ⟨⟨.val 1, 1⟩, ⟨.val 1, 2⟩, by decide, by decide⟩

/-- **C47.** `==`: the same number (not NaN) and the same body; then `cmp` says `Equal`. Without NaN it is reflexive; with NaN it is not. -/
theorem C47_eq {α β : Type} [LinearOrder α] [DecidableEq β] (a b : OrderedProxy α β) :
    (a.eq b = true ↔ ∃ x, a.index = .val x ∧ b.index = .val x ∧ a.body = b.body) ∧ (a.eq b = true → a.cmp b = some .eq) ∧
    (a.eq a = true ↔ a.index ≠ .nan) := by
  rcases a with ⟨_ | x, c⟩ <;> rcases b with ⟨_ | y, d⟩
  · simp [OrderedProxy.eq]
  · simp [OrderedProxy.eq]
  · simp [OrderedProxy.eq]
  · refine ⟨?_, ?_, by simp [OrderedProxy.eq]⟩
    · simp only [OrderedProxy.eq, Bool.and_eq_true, decide_eq_true_eq, F.val.injEq]
      constructor
      · rintro ⟨rfl, rfl⟩; exact ⟨_, rfl, rfl, rfl⟩
      · rintro ⟨_, rfl, rfl, rfl⟩; exact ⟨rfl, rfl⟩
    · simp only [OrderedProxy.eq, Bool.and_eq_true, decide_eq_true_eq]
      rintro ⟨rfl, rfl⟩
      simp [OrderedProxy.cmp, F.partialCmp]

example : (⟨.nan, 1⟩ : OrderedProxy Nat Nat).eq ⟨.nan, 1⟩ = false ∧ (⟨.val 2, 1⟩ : OrderedProxy Nat Nat).eq ⟨.val 2, 1⟩ = true := by decide

example : (⟨.val 3, 1⟩ : OrderedProxy Nat Nat).cmp ⟨.val 7, 0⟩ ≠ some .gt := by decide

end Proxy

/-! ## C39 -/

/-- **C39.** `check_size` fails exactly when a limit is set and exceeded. -/
theorem C39_error_iff (limit n : Nat) : checkSize limit n = none ↔ 0 < limit ∧ limit < n := by
  unfold checkSize; split <;> simp <;> omega

/-- **C39.** Otherwise it tells whether there is no limit or less than three quarters of it is used. -/
theorem C39_ok (limit n : Nat) (h : limit = 0 ∨ n ≤ limit) :
    ∃ b, checkSize limit n = some b ∧ (b = true ↔ limit = 0 ∨ 4 * n < 3 * limit) := by
  unfold checkSize; rw [if_pos h]; refine ⟨_, rfl, by simp⟩

example : checkSize 100 101 = none ∧ checkSize 100 80 = some false ∧ checkSize 0 1000000 = some true := by decide

/-! ## C32 -/
namespace Lbd

/-- the scratch vector never holds a future key -/
def Ok (t : Nat → Nat) : Prop := ∀ i, t i ≤ t 0

theorem loop_spec (key : Nat) : ∀ (ls seen : List Nat) (t : Nat → Nat) (cnt : Nat),
    (∀ i, i ≠ 0 → (t i = key ↔ i ∈ seen)) → (∀ i, t i ≤ key) → t 0 = key →
    cnt = ((seen.filter (· ≠ 0)).toFinset).card →
    (loop key ls (t, cnt)).2 = (((seen ++ ls).filter (· ≠ 0)).toFinset).card ∧
    Ok (loop key ls (t, cnt)).1 ∧ (loop key ls (t, cnt)).1 0 = key := by
  intro ls
  induction ls with
  | nil => intro seen t cnt h1 h2 h3 h4; exact ⟨by simpa [loop] using h4, fun i => by simpa [loop, h3] using h2 i, by simpa [loop] using h3⟩
  | cons lv ls ih =>
    intro seen t cnt h1 h2 h3 h4
    have happ : seen ++ lv :: ls = (seen ++ [lv]) ++ ls := by simp
    simp only [loop]
    by_cases h0 : lv = 0
    · rw [if_pos h0, happ]
      refine ih (seen ++ [lv]) t cnt ?_ h2 h3 ?_
      · intro i hi; rw [h1 i hi]; simp [h0, hi]
      · rw [h4]; simp [h0]
    · rw [if_neg h0]
      by_cases hin : t lv = key
      · rw [if_neg (by simpa using hin), happ]
        have hs : lv ∈ seen := (h1 lv h0).1 hin
        refine ih (seen ++ [lv]) t cnt ?_ h2 h3 ?_
        · intro i hi; rw [h1 i hi]; simp only [List.mem_append, List.mem_singleton]
          constructor
          · exact .inl
          · rintro (h | rfl)
            · exact h
            · exact hs
        · rw [h4]; congr 1; ext i; simp only [List.mem_toFinset, List.mem_filter, List.mem_append, List.mem_singleton]
          constructor
          · rintro ⟨a, b⟩; exact ⟨.inl a, b⟩
          · rintro ⟨a | rfl, b⟩
            · exact ⟨a, b⟩
            · exact ⟨hs, b⟩
      · rw [if_pos (by simpa using hin), happ]
        have hs : lv ∉ seen := fun h => hin ((h1 lv h0).2 h)
        refine ih (seen ++ [lv]) (upd t lv key) (cnt + 1) ?_ ?_ ?_ ?_
        · intro i hi
          simp only [upd, List.mem_append, List.mem_singleton]
          by_cases e : i = lv
          · simp [e]
          · simp [e, h1 i hi]
        · intro i; simp only [upd]; split
          · omega
          · exact h2 i
        · simp only [upd]; split
          · rfl
          · exact h3
        · rw [h4]
          have : ((seen ++ [lv]).filter (· ≠ 0)).toFinset = insert lv ((seen.filter (· ≠ 0)).toFinset) := by
            ext i; simp only [List.mem_toFinset, List.mem_filter, List.mem_append, List.mem_singleton, Finset.mem_insert]
            constructor
            · rintro ⟨a | rfl, b⟩
              · exact .inr ⟨a, b⟩
              · exact .inl rfl
            · rintro (rfl | ⟨a, b⟩)
              · exact ⟨.inr rfl, by simpa using h0⟩
              · exact ⟨.inl a, b⟩
          rw [this, Finset.card_insert_of_notMem]
          simp [hs]

theorem foldl_ok (k : Nat) (hk : 0 < k) : ∀ (ws : List (Nat × Bool)) (t : Nat → Nat), (∀ w ∈ ws, w.1 ≠ 0) → Ok t → t 0 = k →
    Ok (ws.foldl (fun t w => upd t w.1 (if w.2 then k else k - 1)) t) := by
  intro ws
  induction ws with
  | nil => intro t _ h _; exact h
  | cons w ws ih =>
    intro t hw h h0
    simp only [List.foldl_cons]
    have hw0 := hw w (by simp)
    have e0 : upd t w.1 (if w.2 then k else k - 1) 0 = k := by simp [upd, Ne.symm hw0, h0]
    refine ih _ (fun w' hw' => hw w' (by simp [hw'])) ?_ e0
    intro i
    rw [e0]; simp only [upd]; split
    · cases w.2 <;> simp
    · have := h i; omega

theorem lbd_aux (t : Nat → Nat) (h : Ok t) (ls : List Nat) (hl : ls.length < 8192) :
    (updateLbd t ls).2 = ((ls.filter (· ≠ 0)).toFinset).card ∧ Ok (updateLbd t ls).1 := by
  unfold updateLbd
  rw [if_neg (by omega)]
  have := loop_spec (t 0 + 1) ls [] (upd t 0 (t 0 + 1)) 0
    (by intro i hi; simp [upd, hi]; have := h i; omega)
    (by intro i; simp only [upd]; split
        · omega
        · have := h i; omega)
    (by simp [upd]) (by simp)
  exact ⟨by simpa using this.1, this.2.1⟩

/-- **C32.** Whatever the scratch vector was used for before, the rank computed for a clause of fewer than 8192
literals is the number of distinct non-zero decision levels of its literals. -/
theorem C32_lbd (history : List Use) (hw : ∀ ws, Use.other ws ∈ history → ∀ w ∈ ws, w.1 ≠ 0)
    (levels : List Nat) (hl : levels.length < 8192) :
    (updateLbd (run history) levels).2 = ((levels.filter (· ≠ 0)).toFinset).card := by
  have : Ok (run history) := by
    induction history with
    | nil => intro i; simp [run]
    | cons u us ih =>
      have ih := ih (fun ws h => hw ws (by simp [h]))
      cases u with
      | lbd ls =>
        simp only [run]
        by_cases h : ls.length < 8192
        · exact (lbd_aux _ ih ls h).2
        · unfold updateLbd; rw [if_pos (by omega)]; exact ih
      | other ws =>
        simp only [run, scratch]
        refine foldl_ok _ (by omega) ws _ (hw ws (by simp)) ?_ (by simp [upd])
        intro i; simp only [upd]; split
        · simp
        · have := ih i; simp; omega
  exact (lbd_aux _ this levels hl).1

/-- **C32.** The rank does not depend on the order of the literals nor on earlier computations. -/
theorem C32_order_independent (h1 h2 : List Use) (hw1 : ∀ ws, Use.other ws ∈ h1 → ∀ w ∈ ws, w.1 ≠ 0)
    (hw2 : ∀ ws, Use.other ws ∈ h2 → ∀ w ∈ ws, w.1 ≠ 0) (l1 l2 : List Nat) (hp : l1.Perm l2)
    (hl : l1.length < 8192) : (updateLbd (run h1) l1).2 = (updateLbd (run h2) l2).2 := by
  rw [C32_lbd h1 hw1 l1 hl, C32_lbd h2 hw2 l2 (by rw [← hp.length_eq]; exact hl)]
  congr 1; ext i; simp [hp.mem_iff]

/-- Long clauses get the maximal rank. -/
theorem C32_long (t : Nat → Nat) (levels : List Nat) (hl : 8192 ≤ levels.length) : (updateLbd t levels).2 = 65535 := by
  simp [updateLbd, hl]

example : (updateLbd (run [.other [(3, true), (1, false)], .lbd [5, 5, 0]]) [3, 0, 5, 3, 7]).2 = 3 := by decide

end Lbd

/-! ## C40 -/
namespace Scan

/-- **C40.** For every remembered position `start ≥ 2` (even beyond the end of a shortened clause) the scan visits
each index outside the two watches exactly once. -/
theorem C40_coverage (len start : Nat) (hs : 2 ≤ start) :
    ∃ ks, order len start = some ks ∧ ks.Nodup ∧ ∀ k, k ∈ ks ↔ 2 ≤ k ∧ k < len := by
  refine ⟨_, by unfold order; rw [if_neg (by omega)], ?_, ?_⟩
  · rw [List.nodup_append]
    refine ⟨List.nodup_range.sublist (List.drop_sublist _ _), (List.nodup_range.sublist (List.drop_sublist _ _)).sublist (List.take_sublist _ _), ?_⟩
    intro a ha b hb
    rw [List.mem_drop_iff_getElem] at ha
    rw [List.mem_take_iff_getElem] at hb
    obtain ⟨i, hi, rfl⟩ := ha
    obtain ⟨j, hj, rfl⟩ := hb
    simp at hj ⊢
    omega
  · intro k
    rw [List.mem_append, List.mem_drop_iff_getElem, List.mem_take_iff_getElem]
    constructor
    · rintro (⟨i, hi, rfl⟩ | ⟨j, hj, rfl⟩)
      · simp at hi ⊢; omega
      · simp at hj ⊢; omega
    · rintro ⟨h1, h2⟩
      rcases Nat.lt_or_ge k start with hlt | hge
      · right; exact ⟨k - 2, by simp; omega, by simp; omega⟩
      · left; exact ⟨k - start, by simp; omega, by simp; omega⟩

/-- **C40.** The remembered position stays `≥ 2` (so the next scan is again complete) for clauses of up to 65535
literals, for both propagation functions. -/
theorem C40_next (len k : Nat) (hlen : len ≤ 65535) (h2 : 2 ≤ k) (hk : k < len) :
    2 ≤ nextStart k ∧ 2 ≤ nextStartSandbox k := by
  unfold nextStart nextStartSandbox
  rw [Nat.mod_eq_of_lt (by omega), Nat.mod_eq_of_lt (by omega)]
  omega

/-- **C40.** The position kept always fits the `u16` field; below the bound it is the one after the literal chosen; with the saturating addition a clause may have one
literal more. -/
theorem C40_fits (k : Nat) : nextStart k < 2 ^ 16 ∧ nextStartSandbox k < 2 ^ 16 ∧ (k < 65535 → nextStart k = k + 1 ∧ nextStartSandbox k = k + 1) ∧
    (2 ≤ k → k < 65536 → 2 ≤ nextStartSandbox k) := by
  unfold nextStart nextStartSandbox
  omega

example : nextStartSandbox 65535 = 65535 ∧ nextStart 65535 = 0 ∧ nextStart 7 = 8 := by decide

/-- The bound is needed: in a clause of 65536 literals, choosing the last one makes the next scan underflow. -/
theorem C40_bound_needed : 65535 < 65536 ∧ order 65536 (nextStart 65535) = none := by
  constructor
  · omega
  · simp [order, nextStart]

example : order 6 4 = some [4, 5, 2, 3] ∧ order 4 9 = some [2, 3] := by decide

end Scan
end Splr
