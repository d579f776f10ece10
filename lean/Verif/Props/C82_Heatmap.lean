import Verif.Model.Heatmap
import Verif.Props.C09_C22_Cdb
import Mathlib.Algebra.BigOperators.Group.Finset.Basic
import Mathlib.Algebra.BigOperators.Group.List.Basic
import Mathlib.Data.Nat.Cast.Field
import Mathlib.Algebra.CharZero.Defs
import Mathlib.Tactic.FieldSimp
import Mathlib.Tactic.Ring
import Mathlib.Algebra.Field.Rat
import Mathlib.Tactic.IntervalCases
/-!
# C82: the table of clause ranks and uses
-/
namespace Splr
namespace Heat

/-- Row `i` of the table is about the ranks 0 and 1, i + 1, or 7 and more. -/
def InRow (i rank : Nat) : Prop := if i = 0 then rank ≤ 1 else if i = 6 then 7 ≤ rank else rank = i + 1

/-- Column `j` of the table is about the clauses used from 2^j - 1 to 2^(j + 1) - 2 times, the last one about those used 127 times or more. -/
def InCol (j used : Nat) : Prop := if j = 7 then 2 ^ 7 ≤ used + 1 else 2 ^ j ≤ used + 1 ∧ used + 1 < 2 ^ (j + 1)

instance (i r : Nat) : Decidable (InRow i r) := by unfold InRow; infer_instance
instance (j u : Nat) : Decidable (InCol j u) := by unfold InCol; infer_instance

/-- The number of live clauses with a property of the index. -/
def number (db : Cdb) (q : Nat → Prop) [DecidablePred q] : Nat := (List.range db.len).countP fun i => decide ((db.clause i).lits ≠ [] ∧ q i)

theorem row_iff {i rank : Nat} (hi : i < 7) : row rank = i ↔ InRow i rank := by
  unfold row InRow
  split
  · omega
  · split <;> omega

theorem col_iff {j used : Nat} (hj : j < 8) (hu : used < 65536) : col used = j ↔ InCol j used := by
  unfold col InCol
  have h0 : min (used + 1) 65535 ≠ 0 := by omega
  split
  · rename_i e
    subst e
    rw [show min (Nat.log 2 (min (used + 1) 65535)) 7 = 7 ↔ 7 ≤ Nat.log 2 (min (used + 1) 65535) by omega, Nat.le_log_iff_pow_le (by omega) h0]
    omega
  · rename_i e
    have h7 : j < 7 := by omega
    have hp : 2 ^ (j + 1) ≤ 2 ^ 7 := Nat.pow_le_pow_right (by omega) (by omega)
    rw [show min (Nat.log 2 (min (used + 1) 65535)) 7 = j ↔ (j ≤ Nat.log 2 (min (used + 1) 65535) ∧ ¬ j + 1 ≤ Nat.log 2 (min (used + 1) 65535)) by omega,
      Nat.le_log_iff_pow_le (by omega) h0, Nat.le_log_iff_pow_le (by omega) h0]
    have : 2 ^ j ≤ 2 ^ (j + 1) := Nat.pow_le_pow_right (by omega) (by omega)
    omega

/-- The keys of the live clauses. -/
def keys (db : Cdb) (used : Nat → Nat) : List (Nat × Nat) :=
  ((List.range db.len).filter fun i => !decide ((db.clause i).lits = [])).map fun i => (row (db.clause i).rank, col (used i))

theorem foldl_collect {db : Cdb} {used : Nat → Nat} (l : List Nat) : ∀ h : List ((Nat × Nat) × Nat) × Nat,
    l.foldl (fun h i => if (db.clause i).lits = [] then h else (bump (row (db.clause i).rank, col (used i)) h.1, h.2 + 1)) h =
      (((l.filter fun i => !decide ((db.clause i).lits = [])).map fun i => (row (db.clause i).rank, col (used i))).foldl (fun m k => bump k m) h.1,
        h.2 + (l.filter fun i => !decide ((db.clause i).lits = [])).length) := by
  induction l with
  | nil => intro h; simp
  | cons i l ih =>
    intro h
    rw [List.foldl_cons, ih]
    by_cases e : (db.clause i).lits = []
    · simp [e]
    · simp [e]; omega

theorem collect_eq (db : Cdb) (used : Nat → Nat) : collect db used = ((keys db used).foldl (fun m k => bump k m) [], (keys db used).length) := by
  unfold collect keys
  rw [foldl_collect]
  simp

theorem get_bump (k a : Nat × Nat) : ∀ m, (get (bump k m) a).getD 0 = (get m a).getD 0 + if a = k then 1 else 0
  | [] => by
    unfold bump get
    by_cases h : a = k
    · simp [h]
    · have : (a == k) = false := by simpa using h
      simp [List.lookup, this, h]
  | (k', n) :: m => by
    unfold bump
    have ih := get_bump k a m
    unfold get at ih ⊢
    by_cases h : k' = k
    · subst h
      rw [if_pos rfl]
      by_cases h2 : a = k'
      · simp [h2]
      · have : (a == k') = false := by simpa using h2
        simp [List.lookup, this, h2]
    · rw [if_neg h]
      by_cases h2 : a = k'
      · subst h2
        simp [h]
      · have : (a == k') = false := by simpa using h2
        simp only [List.lookup, this]
        exact ih

theorem sum_bump (k : Nat × Nat) : ∀ m, ((bump k m).map Prod.snd).sum = (m.map Prod.snd).sum + 1
  | [] => by simp [bump]
  | (k', n) :: m => by
    unfold bump
    split
    · simp; omega
    · have := sum_bump k m
      simp only [List.map_cons, List.sum_cons, this]; omega

theorem foldl_bump (ks : List (Nat × Nat)) : ∀ m, (∀ a, (get (ks.foldl (fun m k => bump k m) m) a).getD 0 = (get m a).getD 0 + ks.count a) ∧
    ((ks.foldl (fun m k => bump k m) m).map Prod.snd).sum = (m.map Prod.snd).sum + ks.length := by
  induction ks with
  | nil => intro m; simp
  | cons k ks ih =>
    intro m
    rw [List.foldl_cons]
    obtain ⟨h1, h2⟩ := ih (bump k m)
    refine ⟨fun a => ?_, ?_⟩
    · rw [h1, get_bump, List.count_cons]
      by_cases e : a = k
      · simp [e]; omega
      · have : (k == a) = false := by simpa using fun h => e h.symm
        simp [e, this]
    · rw [h2, sum_bump, List.length_cons]; omega

theorem count_keys {db : Cdb} {used : Nat → Nat} {i j : Nat} (hi : i < 7) (hj : j < 8) (hu : ∀ k, used k < 65536) :
    (keys db used).count (i, j) = number db fun k => InRow i (db.clause k).rank ∧ InCol j (used k) := by
  unfold keys number
  rw [List.count, List.countP_map, List.countP_filter]
  congr 1
  funext k
  rw [Bool.eq_iff_iff]
  simp only [Function.comp, Bool.and_eq_true, beq_iff_eq, Prod.mk.injEq, Bool.not_eq_true', decide_eq_false_iff_not, decide_eq_true_eq, row_iff hi, col_iff hj (hu k)]
  tauto

theorem length_keys (db : Cdb) (used : Nat → Nat) : (keys db used).length = number db fun _ => True := by
  unfold keys number
  rw [List.length_map, ← List.countP_eq_length_filter]
  congr 1
  funext k
  simp

theorem count_row {db : Cdb} {used : Nat → Nat} {i : Nat} (hi : i < 7) :
    (keys db used).countP (fun k => decide (k.1 = i)) = number db fun k => InRow i (db.clause k).rank := by
  unfold keys number
  rw [List.countP_map, List.countP_filter]
  congr 1
  funext k
  rw [Bool.eq_iff_iff]
  simp only [Function.comp, Bool.and_eq_true, Bool.not_eq_true', decide_eq_false_iff_not, decide_eq_true_eq, row_iff hi]
  tauto

theorem keys_bound {db : Cdb} {used : Nat → Nat} {k : Nat × Nat} (h : k ∈ keys db used) : k.1 < 7 ∧ k.2 < 8 := by
  unfold keys at h
  obtain ⟨i, -, rfl⟩ := List.mem_map.1 h
  simp only [row, col]; omega

theorem sum_cols (i : Nat) : ∀ (ks : List (Nat × Nat)), (∀ k ∈ ks, k.2 < 8) →
    (List.range 8).foldl (fun s j => s + ks.count (i, j)) 0 = ks.countP fun k => decide (k.1 = i)
  | [], _ => by simp [List.range_succ]
  | (r, c) :: ks, h => by
    have ih := sum_cols i ks fun k hk => h k (by simp [hk])
    have hc : c < 8 := h (r, c) (by simp)
    simp only [List.range_succ, List.range_zero, List.nil_append, List.foldl_append, List.foldl_cons, List.foldl_nil, List.count_cons, List.countP_cons] at ih ⊢
    rw [← ih]
    have e : ∀ j, ((r, c) == (i, j)) = (decide (r = i) && decide (c = j)) := fun j => by
      rw [Bool.eq_iff_iff]; simp
    simp only [e]
    by_cases hr : r = i
    · interval_cases c <;> simp [hr] <;> omega
    · simp [hr]

theorem sum_rows : ∀ (ks : List (Nat × Nat)), (∀ k ∈ ks, k.1 < 7) → ((List.range 7).map fun i => ks.countP fun k => decide (k.1 = i)).sum = ks.length
  | [], _ => by simp
  | (r, c) :: ks, h => by
    have ih := sum_rows ks fun k hk => h k (by simp [hk])
    have hc : r < 7 := h (r, c) (by simp)
    simp only [List.range_succ, List.range_zero, List.nil_append, List.map_append, List.map_cons, List.map_nil, List.sum_append, List.sum_cons, List.sum_nil,
      List.countP_cons, List.length_cons, decide_eq_true_eq] at ih ⊢
    rw [← ih]
    interval_cases r <;> simp <;> omega

end Heat
open Heat

variable {K : Type} [Field K]

theorem Heat.heatmap_row (db : Cdb) {used : Nat → Nat} (hu : ∀ k, used k < 65536) {i : Nat} (hi : i < 7) :
    ∃ (head : K) (cells : List K), (heatmap db used : List (K × List K))[i]? = some (head, cells) ∧
      head = ((number db fun k => InRow i (db.clause k).rank : Nat) : K) / ((number db fun _ => True : Nat) : K) ∧ cells.length = 8 ∧
      ∀ j, j < 8 → cells[j]? = some (((number db fun k => InRow i (db.clause k).rank ∧ InCol j (used k) : Nat) : K) / ((number db fun _ => True : Nat) : K)) := by
  obtain ⟨h1, h2⟩ := foldl_bump (keys db used) []
  have hg : ∀ a, (get (collect db used).1 a).getD 0 = (keys db used).count a := fun a => by
    rw [collect_eq]; simpa [get] using h1 a
  have ht : ((collect db used).1.map Prod.snd).sum = number db fun _ => True := by
    rw [collect_eq, ← length_keys db used]; simpa using h2
  have hn : (collect db used).2 = number db fun _ => True := by rw [collect_eq, ← length_keys db used]
  refine ⟨_, _, by unfold heatmap; rw [List.getElem?_map, List.getElem?_range hi]; rfl, ?_, by simp, fun j hj => ?_⟩
  · rw [hn]
    congr 2
    simp only [hg]
    rw [sum_cols i _ fun k hk => (keys_bound hk).2, count_row hi]
  · rw [List.getElem?_map, List.getElem?_range hj, ht, ← count_keys hi hj hu, ← hg]
    simp only [Option.map_some, Option.some.injEq]
    cases get (collect db used).1 (i, j) with
    | none => simp
    | some k => simp

/-- **C82.** The table has seven rows of eight cells. Each cell is the share of the live clauses with a rank of the row that were used as often as the column says; the
heading of a row is the share of the live clauses with a rank of the row. -/
theorem C82_heatmap (db : Cdb) {used : Nat → Nat} (hu : ∀ k, used k < 65536) : (heatmap db used : List (K × List K)).length = 7 ∧
    ∀ i, i < 7 → ∃ (head : K) (cells : List K), (heatmap db used : List (K × List K))[i]? = some (head, cells) ∧
      head = ((number db fun k => InRow i (db.clause k).rank : Nat) : K) / ((number db fun _ => True : Nat) : K) ∧ cells.length = 8 ∧
      ∀ j, j < 8 → cells[j]? = some (((number db fun k => InRow i (db.clause k).rank ∧ InCol j (used k) : Nat) : K) / ((number db fun _ => True : Nat) : K)) :=
  ⟨by simp [heatmap], fun _ hi => heatmap_row db hu hi⟩

/-- **C82.** No clause is missing and none is counted twice: the headings add up to 1, and the cells of a row to its heading. -/
theorem C82_sums [CharZero K] (db : Cdb) {used : Nat → Nat} (hu : ∀ k, used k < 65536) (hl : ∃ i, i < db.len ∧ (db.clause i).lits ≠ []) :
    ((heatmap db used : List (K × List K)).map Prod.fst).sum = 1 ∧
    ∀ i, i < 7 → ∀ head cells, (heatmap db used : List (K × List K))[i]? = some (head, cells) → cells.sum = head := by
  have hpos : (number db fun _ => True) ≠ 0 := by
    obtain ⟨i, hi, h⟩ := hl
    unfold number
    rw [← Nat.pos_iff_ne_zero, List.countP_pos_iff]
    exact ⟨i, List.mem_range.2 hi, by simpa using h⟩
  have hK : ((number db fun _ => True : Nat) : K) ≠ 0 := by exact_mod_cast hpos
  constructor
  · have hrows := sum_rows (keys db used) fun k hk => (keys_bound hk).1
    rw [length_keys] at hrows
    have key : (heatmap db used : List (K × List K)).map Prod.fst =
        (List.range 7).map fun i => (((keys db used).countP fun k => decide (k.1 = i) : Nat) : K) / (number db fun _ => True : Nat) := by
      apply List.ext_getElem?
      intro i
      by_cases hi : i < 7
      · obtain ⟨head, cells, e, h1, -⟩ := heatmap_row (K := K) db hu hi
        rw [List.getElem?_map, e, List.getElem?_map, List.getElem?_range hi, Option.map_some, Option.map_some, h1, count_row hi]
      · rw [List.getElem?_eq_none (by simp [heatmap]; omega), List.getElem?_eq_none (by simp; omega)]
    rw [key]
    have hs : ∀ (l : List Nat) (f : Nat → Nat) (d : K), (l.map fun i => ((f i : Nat) : K) / d).sum = (((l.map f).sum : Nat) : K) / d := by
      intro l f d
      induction l with
      | nil => simp
      | cons a l ih => simp only [List.map_cons, List.sum_cons, ih, Nat.cast_add, add_div]
    rw [hs, hrows, div_self hK]
  · intro i hi head cells e
    obtain ⟨head', cells', e', h1, h2, h3⟩ := heatmap_row (K := K) db hu hi
    rw [e] at e'
    simp only [Option.some.injEq, Prod.mk.injEq] at e'
    obtain ⟨rfl, rfl⟩ := e'
    have hcells : cells = (List.range 8).map fun j => (((keys db used).count (i, j) : Nat) : K) / (number db fun _ => True : Nat) := by
      apply List.ext_getElem?
      intro j
      by_cases hj : j < 8
      · rw [h3 j hj, List.getElem?_map, List.getElem?_range hj, Option.map_some, count_keys hi hj hu]
      · rw [List.getElem?_eq_none (by omega), List.getElem?_eq_none (by simp; omega)]
    have hsum := sum_cols i (keys db used) fun k hk => (keys_bound hk).2
    rw [count_row hi] at hsum
    rw [hcells, h1, ← hsum]
    simp only [List.range_succ, List.range_zero, List.nil_append, List.map_append, List.map_cons, List.map_nil, List.sum_append, List.sum_cons, List.sum_nil,
      List.foldl_append, List.foldl_cons, List.foldl_nil, Nat.cast_add, add_div, Nat.cast_zero, zero_div]
    ring

/-! A database with live clauses, and its table. -/
example : (∃ i, i < exDb0.len ∧ (exDb0.clause i).lits ≠ []) ∧ (number exDb0 fun _ => True) = 3 := by decide +kernel

example : (heatmap exDb0 fun i => 2 * i : List (ℚ × List ℚ))[0]? = some (2 / 3, [0, 1 / 3, 1 / 3, 0, 0, 0, 0, 0]) ∧
    (heatmap exDb0 fun i => 2 * i : List (ℚ × List ℚ)).map Prod.fst = [2 / 3, 0, 0, 1 / 3, 0, 0, 0] := by decide +kernel

example : (collect exDb0 (fun i => 2 * i)).1.length = 3 ∧ label 0 = "LBD 1" ∧ label 6 = "LBD>6" := by decide +kernel

end Splr
