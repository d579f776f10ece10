import Verif.Model.Reduce
import Verif.Props.C14_C19_Process
/-!
# C64: the clause deletion policy
-/
namespace Splr
open Cdb

variable {K : Type} [LinearOrder K]

/-! ## Specification -/

/-- The clause at `i` may be deleted by a reduction of kind `t`: it is alive, learnt, its rank (the number of distinct
decision levels, `lbdOf`) is above 4 and above the cutoff of `t`. -/
def Candidate (db : Cdb) (level : Nat → Nat) (k : Keys K) (t : ReductionType K) (i : Nat) : Prop :=
  0 < i ∧ (db.clause i).lits ≠ [] ∧ (db.clause i).learnt = true ∧ 4 < lbdOf level (db.clause i).lits ∧
    match t with
    | .rasOnAll cutoff _ => cutoff < k.ras (db.clause i).lits ∧ cutoff < k.ofRank (lbdOf level (db.clause i).lits)
    | .lbdOnAll cutoff _ => cutoff < lbdOf level (db.clause i).lits
    | _ => True

/-- How bad a clause is: its activity sum or its rank. -/
def badness (level : Nat → Nat) (k : Keys K) (t : ReductionType K) (c : Cls) : K :=
  match t with
  | .rasOnAdd _ | .rasOnAll _ _ => k.ras c
  | .lbdOnAdd _ | .lbdOnAll _ _ => k.ofRank (lbdOf level c)

/-- The clause at `i` was deleted between `db` and `db'`. -/
def Deleted (db db' : Cdb) (i : Nat) : Prop := (db.clause i).lits ≠ [] ∧ (db'.clause i).lits = []

/-- `db'` is `db` after the deletion of the worst candidates, all but `keep n` of the `n` candidates. -/
structure ReducedTo (db : Cdb) (level : Nat → Nat) (k : Keys K) (t : ReductionType K) (keep : Nat → Nat) (db' : Cdb) : Prop where
  /-- a clause that is not deleted is not changed -/
  same : ∀ i, Deleted db db' i ∨ (db'.clause i).lits = (db.clause i).lits ∧ (db'.clause i).learnt = (db.clause i).learnt
  /-- only candidates are deleted -/
  only : ∀ i, Deleted db db' i → Candidate db level k t i
  /-- a surviving candidate is better than every deleted one, or as good and at a smaller index -/
  worst : ∀ i j, Deleted db db' i → Candidate db level k t j → ¬ Deleted db db' j →
    badness level k t (db.clause j).lits < badness level k t (db.clause i).lits ∨
    badness level k t (db.clause j).lits = badness level k t (db.clause i).lits ∧ j < i
  /-- how many -/
  count : ∃ cand gone : List Nat, cand.Nodup ∧ (∀ i, i ∈ cand ↔ Candidate db level k t i) ∧
    gone.Nodup ∧ (∀ i, i ∈ gone ↔ Deleted db db' i) ∧ gone.length = cand.length - keep cand.length

/-- How many candidates (out of `n`) survive: all but `size`, or what the fractional power gives. -/
def survivors (t : ReductionType K) (n : Nat) : Nat :=
  match t with
  | .rasOnAdd size | .lbdOnAdd size => n - size
  | .rasOnAll _ keep | .lbdOnAll _ keep => keep n

/-! ## Proof -/

theorem pairwise_insert {key : Nat → K} (a : Nat) : ∀ {l : List Nat}, (∀ b ∈ l, a < b) →
    l.Pairwise (fun x y => key x < key y ∨ key x = key y ∧ x < y) →
    (l.orderedInsert (fun i j => key i ≤ key j) a).Pairwise (fun x y => key x < key y ∨ key x = key y ∧ x < y)
  | [], _, _ => by simp
  | b :: l, hl, hp => by
    obtain ⟨hb, hp'⟩ := List.pairwise_cons.1 hp
    simp only [List.orderedInsert]
    split
    · rename_i hab
      refine List.pairwise_cons.2 ⟨?_, hp⟩
      have key1 : key a < key b ∨ key a = key b ∧ a < b := by
        rcases lt_or_eq_of_le hab with h | h
        · exact .inl h
        · exact .inr ⟨h, hl b (by simp)⟩
      intro c hc
      rcases List.mem_cons.1 hc with rfl | hc
      · exact key1
      · have hac := hl c (by simp [hc])
        have hbc : key b ≤ key c := by
          rcases hb c hc with h | h
          · exact h.le
          · exact h.1.le
        rcases lt_or_eq_of_le (hab.trans hbc) with h | h
        · exact .inl h
        · exact .inr ⟨h, hac⟩
    · rename_i hab
      refine List.pairwise_cons.2 ⟨?_, pairwise_insert a (fun c hc => hl c (by simp [hc])) hp'⟩
      intro c hc
      rw [List.mem_orderedInsert] at hc
      rcases hc with rfl | hc
      · exact .inl (not_le.1 hab)
      · exact hb c hc

theorem pairwise_sort {key : Nat → K} : ∀ {l : List Nat}, l.Pairwise (· < ·) →
    (l.insertionSort fun i j => key i ≤ key j).Pairwise (fun x y => key x < key y ∨ key x = key y ∧ x < y)
  | [], _ => by simp
  | a :: l, h => by
    obtain ⟨h1, h2⟩ := List.pairwise_cons.1 h
    simp only [List.insertionSort_cons]
    exact pairwise_insert a (fun b hb => h1 b ((List.mem_insertionSort _).1 hb)) (pairwise_sort h2)

theorem rerank_clause (db : Cdb) (level : Nat → Nat) (i : Nat) :
    ((db.rerank level).clause i).lits = (db.clause i).lits ∧ ((db.rerank level).clause i).learnt = (db.clause i).learnt ∧
      ((db.clause i).lits ≠ [] → ((db.rerank level).clause i).rank = lbdOf level (db.clause i).lits) := by
  unfold rerank; simp only []; split
  · rename_i h; refine ⟨rfl, rfl, fun h' => ?_⟩; simp [Cl.dead] at h; exact absurd h h'
  · exact ⟨rfl, rfl, fun _ => rfl⟩

theorem mem_perm {db : Cdb} (w : db.WF) (level : Nat → Nat) (k : Keys K) (t : ReductionType K) (i : Nat) :
    i ∈ (db.rerank level).reducePerm k t ↔ Candidate db level k t i := by
  obtain ⟨r1, r2, r3⟩ := rerank_clause db level i
  have hlen : (db.clause i).lits ≠ [] → i < db.len := fun h => by
    by_contra hc; exact h (w.arena.big i (by omega))
  have hl : (db.rerank level).len = db.len := rfl
  unfold Cdb.reducePerm Candidate
  simp only [List.mem_filter, List.mem_range, Bool.and_eq_true, reducible, decide_eq_true_eq, Bool.not_eq_true', Cl.dead, r1, r2, hl]
  by_cases hne : (db.clause i).lits = []
  · simp [hne]
  · have := r3 hne
    have h2 := hlen hne
    cases t <;> simp [reduceCut, this, r1, hne, h2] <;> tauto

omit [LinearOrder K] in
theorem key_badness {db : Cdb} (level : Nat → Nat) (k : Keys K) (t : ReductionType K) {i : Nat} (h : (db.clause i).lits ≠ []) :
    reduceKey k t ((db.rerank level).clause i) = badness level k t (db.clause i).lits := by
  obtain ⟨r1, -, r3⟩ := rerank_clause db level i
  cases t <;> simp [reduceKey, badness, r1, r3 h]

theorem reduceBy_spec {db : Cdb} (w : db.WF) (level : Nat → Nat) (k : Keys K) (t : ReductionType K) :
    ∃ db', db.reduceBy level k t = some db' ∧ ReducedTo db level k t (survivors t) db' := by
  set db1 := db.rerank level with hdb1
  set perm := db1.reducePerm k t with hperm
  set srt := db1.reduceSort k t perm with hsrt
  set n := reduceKeep t perm.length with hn
  have hpp : perm.Pairwise (· < ·) := (List.pairwise_lt_range (n := db1.len)).sublist List.filter_sublist
  have hper : srt.Perm perm := List.perm_insertionSort _ _
  have hnd : perm.Nodup := hpp.imp (fun h => Nat.ne_of_lt h)
  have hnds : srt.Nodup := hper.nodup_iff.2 hnd
  have hps : srt.Pairwise _ := pairwise_sort (key := fun i => reduceKey k t (db1.clause i)) hpp
  have hms : ∀ i, i ∈ srt ↔ Candidate db level k t i := fun i => (hper.mem_iff).trans (mem_perm w level k t i)
  have hmd : ∀ i, i ∈ srt.drop n → Candidate db level k t i := fun i hi => (hms i).1 (List.mem_of_mem_drop hi)
  obtain ⟨d, e, -, -, kk, z, -⟩ := foldl_remove (wf_rerank w level) (victims := srt.drop n) (hnds.sublist (List.drop_sublist _ _))
    (fun i hi => by rw [(rerank_clause db level i).1]; exact (hmd i hi).2.1)
  have hkeep : ∀ i, i ∉ srt.drop n → (d.clause i).lits = (db.clause i).lits ∧ (d.clause i).learnt = (db.clause i).learnt := by
    intro i hi; rw [kk i hi]; exact ⟨(rerank_clause db level i).1, (rerank_clause db level i).2.1⟩
  have hdel : ∀ i, i ∈ srt.drop n ↔ Deleted db d i := by
    intro i
    refine ⟨fun hi => ⟨(hmd i hi).2.1, z i hi⟩, fun ⟨h1, h2⟩ => ?_⟩
    by_contra hc; rw [(hkeep i hc).1] at h2; exact h1 h2
  refine ⟨d, e, ?_, fun i hi => hmd i ((hdel i).2 hi), ?_, perm, srt.drop n, hnd, mem_perm w level k t,
    hnds.sublist (List.drop_sublist _ _), hdel, ?_⟩
  · intro i
    by_cases hi : i ∈ srt.drop n
    · exact .inl ((hdel i).1 hi)
    · exact .inr (hkeep i hi)
  · intro i j hi hj hnj
    have hj1 : j ∈ srt.take n := by
      have := (hms j).2 hj
      rw [← List.take_append_drop n srt] at this
      rcases List.mem_append.1 this with h | h
      · exact h
      · exact absurd ((hdel j).1 h) hnj
    rw [← List.take_append_drop n srt] at hps
    have := (List.pairwise_append.1 hps).2.2 j hj1 i ((hdel i).2 hi)
    simp only [key_badness level k t hj.2.1, hdb1, key_badness level k t hi.1] at this
    exact this
  · rw [List.length_drop, hper.length_eq, hn]
    cases t <;> rfl

theorem reduceBy_choice (db : Cdb) (level : Nat → Nat) (k : Keys K) (t : ReductionType K) :
    ∃ victims, db.reduce level victims = db.reduceBy level k t := by
  set db1 := db.rerank level with hdb1
  set perm := db1.reducePerm k t with hperm
  have hper : (db1.reduceSort k t perm).Perm perm := List.perm_insertionSort _ _
  have hnd : perm.Nodup := ((List.nodup_range (n := db1.len)).sublist List.filter_sublist)
  refine ⟨(db1.reduceSort k t perm).drop (reduceKeep t perm.length), ?_⟩
  unfold Cdb.reduce Cdb.reduceBy
  simp only [← hdb1, ← hperm]
  rw [List.filter_eq_self.2, List.dedup_eq_self.2]
  · exact (hper.nodup_iff.2 hnd).sublist (List.drop_sublist _ _)
  · intro i hi
    have := hper.mem_iff.1 (List.mem_of_mem_drop hi)
    rw [hperm, Cdb.reducePerm, List.mem_filter, Bool.and_eq_true] at this
    exact this.2.1

/-! ## C64 -/

/-- **C64**, for every history of the database: a reduction never panics; it changes no clause it does not delete; of the
candidates it deletes the worst, all but `survivors t n` of them. -/
theorem C64_policy {db : Cdb} (h : DbReach db) (level : Nat → Nat) (k : Keys K) (t : ReductionType K) :
    ∃ db', db.reduceBy level k t = some db' ∧ ReducedTo db level k t (survivors t) db' :=
  reduceBy_spec (reach_wf h) level k t

/-- **C64**, in the search: `reduce` as it is called at the end of a stage. In addition no assignment depends on a deleted
clause, the models of what the solver holds stay the same, and the resulting state is one of those the theorems about the
search speak of (it is the reduction step of the solver model for a certain list of victims). -/
theorem C64_in_the_search {cfg : Cfg} {F : Form} {d : DS} (h : Inner cfg F d none) (k : Keys K) (t : ReductionType K) :
    ∃ db', d.1.reduceBy d.2.level k t = some db' ∧ ReducedTo d.1 d.2.level k t (survivors t) db' ∧
      (∀ l c, Holds d.2 l → ¬ Names d.1 l (d.2.reason l.var) c) ∧
      (∀ b, IsModel db' d.2 b ↔ IsModel d.1 d.2 b) ∧ Inner cfg F (db', d.2) none ∧
      ∃ victims, d.1.reduceRes d.2 victims = .ok (db', d.2) := by
  obtain ⟨F', -, recs, g, hl, hu⟩ := h.ok
  obtain ⟨db', e, hr⟩ := reduceBy_spec g.rinv.wf d.2.level k t
  obtain ⟨victims, hv⟩ := reduceBy_choice d.1 d.2.level k t
  rw [e] at hv
  obtain ⟨h1, db2, e2, hm, -⟩ := C19_reduction_in_the_search h victims
  have e3 : d.1.reduceRes d.2 victims = .ok (db', d.2) := by unfold Cdb.reduceRes; rw [hv]
  rw [e3] at e2; simp at e2; subst e2
  exact ⟨db', e, hr, h1, hm, .reduce h e3, victims, e3⟩

/-- **C64**: within a cycle (`RASonADD(size)`) exactly `min size n` of the `n` candidates are deleted; in particular never
more than `size`. -/
theorem C64_at_most {db : Cdb} (h : DbReach db) (level : Nat → Nat) (k : Keys K) (size : Nat) (t : ReductionType K)
    (ht : t = .rasOnAdd size ∨ t = .lbdOnAdd size) :
    ∃ (db' : Cdb) (gone cand : List Nat), db.reduceBy level k t = some db' ∧ gone.Nodup ∧ (∀ i, i ∈ gone ↔ Deleted db db' i) ∧
      cand.Nodup ∧ (∀ i, i ∈ cand ↔ Candidate db level k t i) ∧ gone.length = min size cand.length := by
  obtain ⟨d, e, -, -, -, cand, gone, c1, c2, g1, g2, g3⟩ := C64_policy h level k t
  refine ⟨d, gone, cand, e, g1, g2, c1, c2, ?_⟩
  rw [g3]
  rcases ht with rfl | rfl <;> simp only [survivors] <;> omega

/-! ### Examples -/

/-- Activities by hand: the sum over the literals of `10 - (variable)`. -/
def exKeys : Keys Int := { ras := fun c => (c.map fun l => (10 : Int) - l.var).sum, ofRank := fun n => n }

/-- Three learnt clauses of ranks 5, 6 and 5 at 4, 5 and 6. -/
def exDb2 : Cdb :=
  newD (newD exDb1 (fun v => v) [exL 1 false, exL 2 true, exL 4 true, exL 5 true, exL 7 true, exL 8 true] true)
    (fun v => v) [exL 1 true, exL 3 false, exL 4 false, exL 5 true, exL 8 true] true

theorem exDb2_reach : DbReach exDb2 := newD_reach (newD_reach exDb1_reach _ _ _ (by decide)) _ _ _ (by decide)

/-- One clause is deleted within a cycle: the longest, with the greatest sum; with two, one of the others goes as well. -/
example : ((exDb2.reduceBy (fun v => v) exKeys (.rasOnAdd 1)).map fun d => (List.range 7).map fun i => (d.clause i).lits.length) =
      some [0, 3, 2, 4, 5, 0, 5] ∧
    ((exDb2.reduceBy (fun v => v) exKeys (.rasOnAdd 2)).map fun d => (List.range 7).map fun i => (d.clause i).lits.length) =
      some [0, 3, 2, 4, 0, 0, 5] := by decide +kernel

/-- By rank with one survivor: 4 and 6 are equally bad, the older one survives. With the cutoff 5 only one is a candidate. -/
example : ((exDb2.reduceBy (fun v => v) exKeys (.lbdOnAll 4 fun _ => 1)).map fun d => (List.range 7).map fun i => (d.clause i).lits.length) =
      some [0, 3, 2, 4, 5, 0, 0] ∧
    ((exDb2.reduceBy (fun v => v) exKeys (.lbdOnAll 5 fun _ => 0)).map fun d => (List.range 7).map fun i => (d.clause i).lits.length) =
      some [0, 3, 2, 4, 5, 0, 5] := by decide +kernel

/-- In the search. -/
example : ∃ d, Inner {} (exWide.map clsOf) d none ∧ (d.1.clause 4).lits.length = 6 ∧
    ∃ y, d.1.reduceBy d.2.level exKeys (.rasOnAdd 3) = some y ∧ (y.clause 4).lits = [] := by
  have h : (headOf {} plainPre (List.replicate 6 plainOrc) (exSolver 7 exWide)).any (fun y => decide ((y.db.clause 4).lits.length = 6) &&
      (y.db.reduceBy (y.s.restart noLow).level exKeys (.rasOnAdd 3)).any fun z => decide ((z.clause 4).lits = [])) = true := by decide +kernel
  obtain ⟨y, hy, h⟩ := (Option.any_eq_true _ _).1 h
  rw [Bool.and_eq_true, decide_eq_true_eq] at h
  obtain ⟨h1, h2⟩ := h
  obtain ⟨z, hz, h2⟩ := (Option.any_eq_true _ _).1 h2
  exact ⟨_, .restart (Head.of (exBuilt (by decide +kernel)) hy).1 noLow, h1, z, hz, by simpa using h2⟩

end Splr
