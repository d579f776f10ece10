import Verif.Lemmas.VivTargets
import Verif.Props.C66_Bounds
import Verif.Props.C64_Reduce
/-!
# C75: which clauses are vivified

`vivifyAll limit first n used d` chooses the clauses itself: `first`: there was no restart yet; `n`: the number of calls modulo 32.
-/
namespace Splr

theorem ids_pos {db : Cdb} {i : Nat} (h : i ∈ (List.range (db.len - 1)).map (· + 1)) : 0 < i ∧ i < db.len := by
  simp only [List.mem_map, List.mem_range] at h
  obtain ⟨m, hm, rfl⟩ := h
  omega

theorem ids_nodup (db : Cdb) : ((List.range (db.len - 1)).map (· + 1)).Nodup := (List.nodup_range).map fun _ _ h => by omega

/-- The chosen ones are among all. -/
theorem truncated {κ : Type} [LinearOrder κ] (b m : Nat) (cs : List (κ × Nat)) :
    ∃ dropped, ((if b < cs.length then (cs.mergeSort fun a b => decide (a.1 ≤ b.1)).take m else cs) ++ dropped).Perm cs ∧
      ∀ x ∈ (if b < cs.length then (cs.mergeSort fun a b => decide (a.1 ≤ b.1)).take m else cs), ∀ y ∈ dropped, x.1 ≤ y.1 := by
  by_cases h : b < cs.length
  · rw [if_pos h]; exact topK cs m
  · rw [if_neg h]; exact ⟨[], by simp, by simp⟩

theorem firstTargets_sub (db : Cdb) (nv m : Nat) : ∃ dropped, (firstTargets db nv m ++ dropped).Perm (firstAll db nv) ∧
    ∀ x ∈ firstTargets db nv m, ∀ y ∈ dropped, x.1 ≤ y.1 := truncated (10 * m) m (firstAll db nv)

theorem laterTargets_sub (db : Cdb) (used : Nat → Nat) (n m : Nat) : ∃ dropped, (laterTargets db used n m ++ dropped).Perm (laterAll db used n) ∧
    ∀ x ∈ laterTargets db used n m, ∀ y ∈ dropped, x.1 ≤ y.1 := truncated m m (laterAll db used n)

/-- The chosen clauses of a first stage. -/
def firstIds (db : Cdb) (nv limit : Nat) : List Nat := (firstTargets db nv limit).map Prod.snd

/-- The chosen clauses of a later stage. -/
def laterIds (db : Cdb) (used : Nat → Nat) (n limit : Nat) : List Nat := (laterTargets db used n limit).map Prod.snd

theorem firstIds_ok (db : Cdb) (nv m : Nat) : (firstIds db nv m).Nodup ∧ (∀ i ∈ firstIds db nv m, 0 < i ∧ i < db.len ∧ (db.clause i).lits ≠ []) ∧
    (firstIds db nv m).length ≤ 10 * m := by
  obtain ⟨dr, hp, -⟩ := firstTargets_sub db nv m
  have hm := (hp.map Prod.snd).nodup_iff.2 (firstAll_ids db nv)
  rw [List.map_append] at hm
  refine ⟨(List.nodup_append.1 hm).1, fun i hi => ?_, ?_⟩
  · obtain ⟨⟨n, j⟩, hj, rfl⟩ := List.mem_map.1 hi
    obtain ⟨k, -, h1, h2, h3, -⟩ := mem_firstAll (hp.mem_iff.1 (List.mem_append_left _ hj))
    exact ⟨h1, h2, by intro e; rw [e] at h3; simp at h3⟩
  · unfold firstIds firstTargets
    simp only [List.length_map]
    split
    · rw [List.length_take]; omega
    · omega

theorem laterIds_ok (db : Cdb) (used : Nat → Nat) (n m : Nat) : (laterIds db used n m).Nodup ∧
    (∀ i ∈ laterIds db used n m, 0 < i ∧ i < db.len ∧ Probed n (db.clause i) (used i)) ∧ (laterIds db used n m).length ≤ m := by
  obtain ⟨dr, hp, -⟩ := laterTargets_sub db used n m
  have hm := hp.map Prod.snd
  rw [laterAll_ids, List.map_append] at hm
  refine ⟨(List.nodup_append.1 (hm.nodup_iff.2 ((ids_nodup db).filter _))).1, fun i hi => ?_, ?_⟩
  · have := hm.mem_iff.1 (List.mem_append_left _ hi)
    rw [List.mem_filter] at this
    obtain ⟨h1, h2⟩ := ids_pos this.1
    exact ⟨h1, h2, by simpa using this.2⟩
  · unfold laterIds laterTargets
    simp only [List.length_map]
    split
    · rw [List.length_take]; omega
    · omega

/-- **C75.** Each call of the vivifier is a vivification (C18) of some clauses: none is tried twice, all of them were there at the beginning,
and there are not more of them than the limit, ten times the limit before the first restart. -/
theorem C75_each_clause_once (limit : Nat) (first : Bool) (n : Nat) (used : Nat → Nat) (d d1 : DS) (hd : propRemains d = .ok d1) :
    ∃ ts : List Nat, ts.Nodup ∧ (∀ i ∈ ts, 0 < i ∧ i < d1.1.len ∧ (d1.1.clause i).lits ≠ []) ∧
      ts.length ≤ (if first then 10 * limit else limit) ∧ vivifyAll limit first n used d = vivify ts d := by
  have key : ∀ ids : List Nat, ids.Nodup → (∀ i ∈ ids, 0 < i ∧ i < d1.1.len ∧ (d1.1.clause i).lits ≠ []) →
      ids.length ≤ (if first then 10 * limit else limit) →
      (if first then (firstTargets d1.1 d1.2.numVars limit).map Prod.snd else (laterTargets d1.1 used n limit).map Prod.snd) = ids →
      ∃ ts : List Nat, ts.Nodup ∧ (∀ i ∈ ts, 0 < i ∧ i < d1.1.len ∧ (d1.1.clause i).lits ≠ []) ∧
        ts.length ≤ (if first then 10 * limit else limit) ∧ vivifyAll limit first n used d = vivify ts d := by
    intro ids h1 h2 h3 he
    obtain ⟨pre, post, e, hne, hp⟩ := vivLoopLim_prefix limit ids.reverse 0 d1
    have hsub : pre.Sublist ids.reverse := by rw [e]; exact List.sublist_append_left _ _
    refine ⟨pre, hsub.nodup (List.nodup_reverse.2 h1), fun i hi => h2 i (by simpa using hsub.subset hi), le_trans hsub.length_le (by simpa using h3), ?_⟩
    unfold vivifyAll vivify
    rw [hd]
    simp only [Res.bind, he]
    by_cases h0 : ids.reverse = []
    · have : pre = [] := by rw [h0] at e; exact (List.append_eq_nil_iff.1 e.symm).1
      rw [if_pos h0, if_pos this]
    · rw [if_neg h0, if_neg (hne h0), hp]
  cases first with
  | true =>
    obtain ⟨a, b, c⟩ := firstIds_ok d1.1 d1.2.numVars limit
    exact key _ a b c rfl
  | false =>
    obtain ⟨a, b, c⟩ := laterIds_ok d1.1 used n limit
    exact key _ a (fun i hi => ⟨(b i hi).1, (b i hi).2.1, (b i hi).2.2.1⟩) c rfl

theorem vivifyAll_vivify (limit : Nat) (first : Bool) (n : Nat) (used : Nat → Nat) (d : DS) : ∃ ts, vivifyAll limit first n used d = vivify ts d := by
  cases hd : propRemains d with
  | ok d1 => obtain ⟨ts, -, -, -, h⟩ := C75_each_clause_once limit first n used d d1 hd; exact ⟨ts, h⟩
  | _ => exact ⟨[], by unfold vivifyAll vivify; rw [hd]; rfl⟩

/-- **C75.** So after a call the state is one of those that C18 and the other properties speak of; the models of the clauses are the same. -/
theorem C75_sound {cfg : Cfg} {F : Form} {d d' : DS} {limit : Nat} {first : Bool} {n : Nat} {used : Nat → Nat} (h : Inner cfg F d none)
    (e : vivifyAll limit first n used d = .ok d') : Inner cfg F d' none ∧ ∀ b, IsModel d'.1 d'.2 b ↔ IsModel d.1 d.2 b := by
  obtain ⟨ts, ht⟩ := vivifyAll_vivify limit first n used d
  rw [ht] at e
  have := C18_vivification h ts
  rw [e] at this
  exact ⟨.vivify h e, this.1⟩

/-- Five clauses, two begin with the same literal. -/
def exStart : List (List Int) := [[1, 2, 3, 4], [1, 2, 5], [-3, -4, -1], [2, -5], [-2, 3, 4]]

example : ∃ d d', Inner {} (exStart.map clsOf) d none ∧ vivifyAll 20000 true 0 (fun _ => 0) d = .ok d' ∧ (d'.1.clause 1).lits ≠ (d.1.clause 1).lits := by
  refine ⟨((exSolver 5 exStart).db, (exSolver 5 exStart).s), ?_⟩
  have h : (match vivifyAll 20000 true 0 (fun _ => 0) ((exSolver 5 exStart).db, (exSolver 5 exStart).s) with
    | .ok y => decide ((y.1.clause 1).lits ≠ ((exSolver 5 exStart).db.clause 1).lits) | _ => false) = true := by decide +kernel
  split at h
  · rename_i z hz; exact ⟨z, .built (exBuilt (by decide +kernel)), hz, by simpa using h⟩
  · simp at h

/-- **C75.** Before the first restart, unless there are too many variables (100000): for every literal with which some clause begins one
of the longest such clauses is tried, and no other. -/
theorem C75_first_stage {cfg : Cfg} {F : Form} {d : DS} (h : Inner cfg F d none) (limit : Nat) (hn : d.2.numVars < 5 * limit) (l : Lit) :
    ((∃ i, (d.1.clause i).lits.head? = some l) →
      ∃ i ∈ firstIds d.1 d.2.numVars limit, (d.1.clause i).lits.head? = some l ∧
        (∀ j, (d.1.clause j).lits.head? = some l → (d.1.clause j).lits.length ≤ (d.1.clause i).lits.length)) ∧
    ∀ i ∈ firstIds d.1 d.2.numVars limit, ∀ j ∈ firstIds d.1 d.2.numVars limit, (d.1.clause i).lits.head? = some l →
      (d.1.clause j).lits.head? = some l → i = j := by
  have hb := C66_in_bounds (.inner h)
  have hlen : (firstAll d.1 d.2.numVars).length ≤ 2 * (d.2.numVars + 1) := by
    unfold firstAll
    exact le_trans (List.length_filterMap_le _ _) (by simp)
  have hall : firstTargets d.1 d.2.numVars limit = firstAll d.1 d.2.numVars := by
    unfold firstTargets
    exact if_neg (by omega)
  have hix : ∀ j l, (d.1.clause j).lits.head? = some l → 0 < j ∧ j < d.1.len ∧ l.var ≤ d.2.numVars := by
    intro j l hj
    have hne : (d.1.clause j).lits ≠ [] := by intro e; rw [e] at hj; simp at hj
    obtain ⟨c1, c2, -⟩ := hb.clause j hne
    exact ⟨c1, c2, (hb.lits j l (List.mem_of_mem_head? hj)).2⟩
  constructor
  · rintro ⟨i, hi⟩
    obtain ⟨c1, c2, c3⟩ := hix i l hi
    obtain ⟨n, j, hj, hh⟩ := firstAll_covers c1 c2 hi c3
    refine ⟨j, ?_, hh, fun m hm => ?_⟩
    · unfold firstIds; rw [hall]; exact List.mem_map.2 ⟨_, hj, rfl⟩
    · obtain ⟨k, -, -, -, e, hn, hmax⟩ := mem_firstAll hj
      rw [hh] at e
      obtain ⟨b1, b2, -⟩ := hix m l hm
      have := hmax m b1 b2 (by rw [← Option.some.inj e]; exact hm)
      omega
  · intro i hi j hj h1 h2
    unfold firstIds at hi hj
    rw [hall] at hi hj
    obtain ⟨⟨a, i'⟩, hi', rfl⟩ := List.mem_map.1 hi
    obtain ⟨⟨b, j'⟩, hj', rfl⟩ := List.mem_map.1 hj
    exact firstAll_inj hi' hj' h1 h2

example : ∃ d, Inner {} (exStart.map clsOf) d none ∧ d.2.numVars < 5 * 20000 ∧ firstIds d.1 d.2.numVars 20000 = [3, 1, 5, 4] ∧
    (d.1.clause 2).lits.head? = (d.1.clause 1).lits.head? := by
  refine ⟨((exSolver 5 exStart).db, (exSolver 5 exStart).s), .built (exBuilt (by decide +kernel)), by decide +kernel, by decide +kernel, by decide +kernel⟩

/-- **C75.** Later, unless there are more candidates than the limit, the clauses tried are exactly the candidates of the stage. -/
theorem C75_later_stage {cfg : Cfg} {F : Form} {d : DS} (h : Inner cfg F d none) (used : Nat → Nat) (n limit : Nat)
    (hn : ((List.range d.1.len).filter fun i => decide (Probed n (d.1.clause i) (used i))).length ≤ limit) (i : Nat) :
    i ∈ laterIds d.1 used n limit ↔ Probed n (d.1.clause i) (used i) := by
  have hb := C66_in_bounds (.inner h)
  have hz : (d.1.clause 0).lits = [] := by
    by_contra hc
    exact absurd (hb.clause 0 hc).1 (by omega)
  have hids := laterAll_ids d.1 used n
  have hlen : (laterAll d.1 used n).length ≤ limit := by
    have e : (laterAll d.1 used n).length = ((laterAll d.1 used n).map Prod.snd).length := by simp
    rw [e, hids]
    refine le_trans (List.Nodup.length_le_of_subset ((ids_nodup d.1).filter _) fun i hi => ?_) hn
    rw [List.mem_filter] at hi ⊢
    exact ⟨List.mem_range.2 (ids_pos hi.1).2, hi.2⟩
  unfold laterIds laterTargets
  rw [show (if limit < (laterAll d.1 used n).length then _ else laterAll d.1 used n) = laterAll d.1 used n from if_neg (by omega), hids,
    List.mem_filter, decide_eq_true_eq]
  refine ⟨fun h => h.2, fun h => ⟨?_, h⟩⟩
  obtain ⟨c1, c2, -⟩ := hb.clause i h.1
  simp only [List.mem_map, List.mem_range]
  exact ⟨i - 1, by omega, by omega⟩

example : ∃ d, Inner {} (exStart.map clsOf) d none ∧ ((List.range d.1.len).filter fun i => decide (Probed 1 (d.1.clause i) 4)).length ≤ 20000 ∧
    Probed 1 (d.1.clause 4) 4 ∧ ¬ Probed 1 (d.1.clause 1) 4 :=
  ⟨((exSolver 5 exStart).db, (exSolver 5 exStart).s), .built (exBuilt (by decide +kernel)), by decide +kernel, by decide +kernel, by decide +kernel⟩

/-- **C75.** If there are more, the vivifier takes `limit` of them, and these are the worst: no clause that is left out is worse than
one that is tried. (Full property: no clause that is left out is better than one that is tried.) -/
theorem C75_keeps_the_worst_partial (db : Cdb) (used : Nat → Nat) (n limit : Nat)
    (hn : limit < ((List.range db.len).filter fun i => decide (Probed n (db.clause i) (used i))).length) (hz : (db.clause 0).lits = []) :
    (laterIds db used n limit).length = limit ∧
    ∀ i ∈ laterIds db used n limit, ∀ j, 0 < j → j < db.len → Probed n (db.clause j) (used j) → j ∉ laterIds db used n limit →
      ¬ Better (db.clause i) (db.clause j) := by
  have hids := laterAll_ids db used n
  have hlen : limit < (laterAll db used n).length := by
    have e : (laterAll db used n).length = ((laterAll db used n).map Prod.snd).length := by simp
    rw [e, hids]
    refine lt_of_lt_of_le hn (List.Nodup.length_le_of_subset (List.nodup_range.filter _) fun i hi => ?_)
    rw [List.mem_filter] at hi ⊢
    refine ⟨?_, hi.2⟩
    have h1 := List.mem_range.1 hi.1
    have h0 : i ≠ 0 := by
      rintro rfl
      have := hi.2
      rw [decide_eq_true_eq] at this
      exact this.1 hz
    simp only [List.mem_map, List.mem_range]
    exact ⟨i - 1, by omega, by omega⟩
  constructor
  · unfold laterIds laterTargets
    rw [List.length_map]
    simp only [if_pos hlen, List.length_take, List.length_mergeSort]
    omega
  · intro i hi j h0 hl hc hj
    obtain ⟨dr, hp, hle⟩ := laterTargets_sub db used n limit
    have hci := ((laterIds_ok db used n limit).2.1 i hi).2.2
    have hjm : j ∈ (laterAll db used n).map Prod.snd := by
      rw [hids, List.mem_filter]
      exact ⟨by simp only [List.mem_map, List.mem_range]; exact ⟨j - 1, by omega, by omega⟩, by simpa using hc⟩
    obtain ⟨⟨kj, j⟩, hj', rfl⟩ := List.mem_map.1 hjm
    obtain ⟨⟨ki, i⟩, hi', rfl⟩ := List.mem_map.1 hi
    have hjd : (kj, j) ∈ dr := by
      rcases List.mem_append.1 (hp.mem_iff.2 hj') with h | h
      · exact absurd (List.mem_map.2 ⟨_, h, rfl⟩) hj
      · exact h
    have := laterKey_le (laterAll_key (hp.mem_iff.1 (List.mem_append_left _ hi'))) (laterAll_key hj') hci hc (hle _ hi' _ hjd)
    unfold Better
    simp only at *
    omega

/-- After a restart and a reduction there are 7 candidates; clause 9 is the worst. -/
theorem exCut : ∃ d, Inner {} (exDeep.map clsOf) d none ∧ 1 < ((List.range d.1.len).filter fun i => decide (Probed 0 (d.1.clause i) 0)).length ∧
    (d.1.clause 0).lits = [] ∧ 9 < d.1.len ∧ Probed 0 (d.1.clause 4) 0 ∧ Probed 0 (d.1.clause 9) 0 ∧
    ∀ i < d.1.len, Probed 0 (d.1.clause i) 0 → i ≠ 9 → Better (d.1.clause i) (d.1.clause 9) := by
  have h : (headOf {} plainPre (List.replicate 4 plainOrc) (exSolver 11 exDeep)).any (fun y =>
      match y.db.reduceRes (y.s.restart noLow) [] with
      | .ok d => decide (1 < ((List.range d.1.len).filter fun i => decide (Probed 0 (d.1.clause i) 0)).length ∧
          (d.1.clause 0).lits = [] ∧ 9 < d.1.len ∧ Probed 0 (d.1.clause 4) 0 ∧ Probed 0 (d.1.clause 9) 0 ∧
          ∀ i < d.1.len, Probed 0 (d.1.clause i) 0 → i ≠ 9 → Better (d.1.clause i) (d.1.clause 9))
      | _ => false) = true := by decide +kernel
  obtain ⟨y, hy, h⟩ := (Option.any_eq_true _ _).1 h
  split at h
  · rename_i d hd
    exact ⟨d, .reduce (.restart (Head.of exDeep_built hy).1 noLow) hd, by simpa using h⟩
  · simp at h

example : ∃ d, Inner {} (exDeep.map clsOf) d none ∧ 1 < ((List.range d.1.len).filter fun i => decide (Probed 0 (d.1.clause i) 0)).length ∧
    (d.1.clause 0).lits = [] := by
  obtain ⟨d, h, h1, h2, -⟩ := exCut
  exact ⟨d, h, h1, h2⟩

/-- **C75 violated.** A candidate is left out that is better than one that is tried (src/cdb/vivify.rs:221-233: `new_invert` negates a value of
which "smaller is better", then the list is sorted and its end is cut off). -/
theorem C75_violated : ∃ (d : DS) (i j : Nat), Inner {} (exDeep.map clsOf) d none ∧ i ∈ laterIds d.1 (fun _ => 0) 0 1 ∧
    j ∉ laterIds d.1 (fun _ => 0) 0 1 ∧ Probed 0 (d.1.clause j) 0 ∧ Better (d.1.clause j) (d.1.clause i) := by
  obtain ⟨d, hi, h1, h2, h3, h4, h5, h6⟩ := exCut
  obtain ⟨k1, k2⟩ := C75_keeps_the_worst_partial d.1 (fun _ => 0) 0 1 h1 h2
  obtain ⟨i, e⟩ := List.length_eq_one_iff.1 k1
  have him : i ∈ laterIds d.1 (fun _ => 0) 0 1 := by rw [e]; simp
  obtain ⟨hi0, hil, hic⟩ := (laterIds_ok d.1 (fun _ => 0) 0 1).2.1 i him
  by_cases h9 : i = 9
  · exact ⟨d, i, 4, hi, him, by rw [e, h9]; simp, h4, by rw [h9]; exact h6 4 (by omega) h4 (by omega)⟩
  · exact absurd (h6 i hil hic h9) (k2 i him 9 (by omega) h3 h5 (by rw [e]; simpa using Ne.symm h9))

end Splr
