import Verif.Lemmas.CdbOps
import Mathlib.Algebra.BigOperators.Group.Finset.Basic
import Mathlib.Algebra.Order.Group.Multiset
/-! A checker of proofs with deletions, and the clauses of a database as a multiset. -/
namespace Splr

/-! ## unit propagation and deletions -/

/-- Derived by unit propagation from the listed clauses alone. -/
def Up (K : Form) (l : Lit) : Prop := UP K (fun _ => False) l

theorem Up.mono {K K' : Form} (h : ∀ d ∈ K, d ∈ K') {l : Lit} (hl : Up K l) : Up K' l := by
  induction hl with
  | assume h => exact h.elim
  | unit hc hl _ ih => exact .unit (h _ hc) hl fun m hm hne => ih m hm hne

theorem Up.closed {K : Form} {D : Lit → Prop} (h : ∀ d ∈ K, Resp D d) {l : Lit} (hl : Up K l) : D l := by
  induction hl with
  | assume h => exact h.elim
  | unit hc hl _ ih => exact (h _ hc).1 _ hl fun m hm hne => ih m hm hne

theorem isPerm_congr {c d : Cls} (h : d.isPerm c = true) : ∀ x, x ∈ d ↔ x ∈ c := fun _ => (List.isPerm_iff.1 h).mem_iff

theorem Up.listed {K : Form} {r : CertRec} {l : Lit} (hl : Up K l) : Up (listed false K r) l := by
  cases r with
  | add c => exact hl.mono fun d hd => by simp [Splr.listed, hd]
  | del c =>
    simp only [Splr.listed, true_and]
    split
    · exact hl
    rename_i hu
    induction hl with
    | assume h => exact h.elim
    | @unit d l hc hl h0 ih =>
      by_cases hp : d.isPerm c = true
      · exfalso
        have hm := isPerm_congr hp
        exact hu ⟨rfl, l, (hm l).1 hl, .unit hc hl h0, fun m h1 h2 => h0 m ((hm m).2 h1) h2⟩
      · exact .unit ((List.mem_eraseP_of_neg (by simpa using hp)).2 hc) hl fun m hm hne => ih m hm hne

/-- Unit propagation alone runs into a conflict. -/
def Clash (K : Form) : Prop := UPConflict K (fun _ => False)

theorem Clash.listed {K : Form} {r : CertRec} (hr : r ≠ .del []) (h : Clash K) : Clash (listed false K r) := by
  rcases h with ⟨d, hd, hl⟩ | ⟨l, h1, h2⟩
  · cases r with
    | add c => exact .inl ⟨d, by simp [Splr.listed, hd], fun l h => Up.listed (hl l h)⟩
    | del c =>
      refine .inl ⟨d, ?_, fun l h => Up.listed (hl l h)⟩
      simp only [Splr.listed, true_and]
      split
      · exact hd
      rename_i hu
      refine (List.mem_eraseP_of_neg ?_).2 hd
      intro hp
      have hm := isPerm_congr hp
      cases c with
      | nil => exact hr rfl
      | cons l c =>
        have hll : l ∈ d := (hm l).2 (by simp)
        exact hu ⟨rfl, l, by simp, .unit hd hll fun m h _ => hl m h, fun m h _ => hl m ((hm m).2 h)⟩
  · exact .inr ⟨l, Up.listed h1, Up.listed h2⟩

/-- If no set of literals respects the listed clauses then unit propagation runs into a conflict. -/
theorem clash_of_no_closed {K : Form} (h : ∀ D, Cons D → (∀ d ∈ K, Resp D d) → False) : Clash K := by
  have := rup_of_no_closed (G := K) (c := []) fun D h1 h2 _ => h D h1 h2
  unfold RUP at this; unfold Clash; simpa using this

theorem Clash.rup {K : Form} (h : Clash K) : RUP K [] := by unfold RUP; unfold Clash at h; simpa using h

/-- The literals derived are a set that respects the listed clauses, unless there is a conflict. -/
theorem up_closed {K : Form} (h : ¬ Clash K) : Cons (Up K) ∧ ∀ d ∈ K, Resp (Up K) d := by
  unfold Clash UPConflict at h
  rw [not_or] at h
  refine ⟨fun l h1 h2 => h.2 ⟨l, h1, h2⟩, fun d hd => ⟨fun x hx hy => .unit hd hx hy, ?_⟩⟩
  by_contra hc
  refine h.1 ⟨d, hd, fun l hl => ?_⟩
  by_contra hn
  exact hc ⟨l, hl, hn⟩

/-! ## clauses as multisets -/

/-- The clauses of a list, as multisets of literals. -/
def bag (K : List Cls) : Multiset (Multiset Lit) := (List.map (fun c : Cls => (Multiset.ofList c)) K : List (Multiset Lit))

@[simp] theorem bag_nil : bag [] = 0 := rfl
@[simp] theorem bag_cons (c : Cls) (K : List Cls) : bag (c :: K) = (c : Multiset Lit) ::ₘ bag K := rfl
@[simp] theorem bag_append (K L : List Cls) : bag (K ++ L) = bag K + bag L := by simp [bag]

theorem mem_bag {K : List Cls} {c : Cls} : (c : Multiset Lit) ∈ bag K ↔ ∃ d ∈ K, d.Perm c := by
  simp only [bag, Multiset.mem_coe, List.mem_map, Multiset.coe_eq_coe]

theorem bag_drop {K : Form} {c : Cls} (h : (c : Multiset Lit) ∈ bag K) : bag K = (c : Multiset Lit) ::ₘ bag (dropListed K c) := by
  obtain ⟨d, hd, hp⟩ := mem_bag.1 h
  obtain ⟨a, l1, l2, h1, h2, h3, h4⟩ := List.exists_of_eraseP (p := fun d => d.isPerm c) hd (List.isPerm_iff.2 hp)
  unfold dropListed
  rw [h4, h3]
  have : (a : Multiset Lit) = c := Multiset.coe_eq_coe.2 (List.isPerm_iff.1 h2)
  simp [this]

/-- One clause, none if it is deleted. -/
def one (c : Cls) : Multiset (Multiset Lit) := if c = [] then 0 else {(c : Multiset Lit)}

@[simp] theorem one_nil : one [] = 0 := rfl
theorem one_of_ne {c : Cls} (h : c ≠ []) : one c = {(c : Multiset Lit)} := if_neg h

theorem one_perm {c d : Cls} (h : c.Perm d) : one c = one d := by
  unfold one
  have : c = [] ↔ d = [] := ⟨fun e => by subst e; exact h.nil_eq.symm, fun e => by subst e; exact h.symm.nil_eq.symm⟩
  simp only [this, Multiset.coe_eq_coe.2 h]

/-- The clauses of the database. -/
def Cdb.lives (db : Cdb) : Multiset (Multiset Lit) := ∑ i ∈ Finset.range db.len, one (db.clause i).lits

theorem lives_eq {db : Cdb} (hw : db.WF) {n : Nat} (h : db.len ≤ n) : db.lives = ∑ i ∈ Finset.range n, one (db.clause i).lits := by
  unfold Cdb.lives
  refine Finset.sum_subset (by intro x; simp; omega) fun i _ hi => ?_
  simp at hi
  rw [hw.arena.big i hi]; rfl

theorem mem_lives {db : Cdb} (hw : db.WF) {i : Nat} (hi : (db.clause i).lits ≠ []) : ((db.clause i).lits : Multiset Lit) ∈ db.lives := by
  unfold Cdb.lives
  rw [Multiset.mem_sum]
  refine ⟨i, ?_, by rw [one_of_ne hi]; simp⟩
  rw [Finset.mem_range]
  by_contra h
  exact hi (hw.arena.big i (by omega))

/-- One clause changes. -/
theorem lives_upd {db db' : Cdb} (hw : db.WF) (hw' : db'.WF) {cid : Nat} (h : ∀ i, i ≠ cid → (db'.clause i).lits.Perm (db.clause i).lits) :
    db'.lives + one (db.clause cid).lits = db.lives + one (db'.clause cid).lits := by
  rw [lives_eq hw (n := db.len + db'.len + cid + 1) (by omega), lives_eq hw' (n := db.len + db'.len + cid + 1) (by omega)]
  have hm : cid ∈ Finset.range (db.len + db'.len + cid + 1) := by simp; omega
  rw [← Finset.add_sum_erase _ _ hm, ← Finset.add_sum_erase _ (fun i => one (db.clause i).lits) hm]
  have : ∑ i ∈ (Finset.range (db.len + db'.len + cid + 1)).erase cid, one (db'.clause i).lits =
      ∑ i ∈ (Finset.range (db.len + db'.len + cid + 1)).erase cid, one (db.clause i).lits :=
    Finset.sum_congr rfl fun i hi => one_perm (h i (Finset.ne_of_mem_erase hi))
  rw [this]
  rw [add_comm (one (db'.clause cid).lits), add_comm (one (db.clause cid).lits), add_right_comm]

theorem lives_perm {db db' : Cdb} (hw : db.WF) (hw' : db'.WF) (h : ∀ i, (db'.clause i).lits.Perm (db.clause i).lits) : db'.lives = db.lives := by
  rw [lives_eq hw (n := db.len + db'.len) (by omega), lives_eq hw' (n := db.len + db'.len) (by omega)]
  exact Finset.sum_congr rfl fun i _ => one_perm (h i)

theorem bag_one {c : Cls} (h : c ≠ []) : bag [c] = one c := by rw [one_of_ne h]; rfl

/-- A clause is deleted. -/
theorem lives_del {db db' : Cdb} (hw : db.WF) (hw' : db'.WF) {cid : Nat} (h : ∀ i, i ≠ cid → db'.clause i = db.clause i)
    (hne : (db.clause cid).lits ≠ []) (h' : (db'.clause cid).lits = []) : db'.lives + bag [(db.clause cid).lits] ≤ db.lives + bag [] := by
  have := lives_upd hw hw' fun i hi => by rw [h i hi]
  rw [bag_one hne, this, h']; simp

/-- A clause is replaced. -/
theorem lives_sub {db db' : Cdb} (hw : db.WF) (hw' : db'.WF) {cid : Nat} {c : Cls} (h : ∀ i, i ≠ cid → db'.clause i = db.clause i)
    (hne : (db.clause cid).lits ≠ []) (h' : (db'.clause cid).lits.Perm c) : db'.lives + bag [(db.clause cid).lits] ≤ db.lives + bag [c] := by
  have := lives_upd hw hw' fun i hi => by rw [h i hi]
  rw [bag_one hne, this, one_perm h']
  by_cases e : c = []
  · subst e; simp
  · rw [bag_one e]

/-- A clause is added. -/
theorem lives_add {db db' : Cdb} (hw : db.WF) (hw' : db'.WF) {cid : Nat} {c : Cls} (h : ∀ i, i ≠ cid → db'.clause i = db.clause i)
    (hne : (db.clause cid).lits = []) (h' : (db'.clause cid).lits.Perm c) : db'.lives + bag [] ≤ db.lives + bag [c] := by
  have := lives_upd hw hw' fun i hi => by rw [h i hi]
  rw [hne] at this; simp only [one_nil, add_zero] at this
  rw [bag_nil, add_zero, this, one_perm h']
  by_cases e : c = []
  · subst e; simp
  · rw [bag_one e]

/-- Only deletions. -/
def Cdb.Dels (db db' : Cdb) : Prop := ∃ ds : List Cls, db'.cert = db.cert ++ ds.map .del ∧ (∀ c ∈ ds, c ≠ []) ∧ db'.lives + bag ds ≤ db.lives

theorem Cdb.Dels.refl (db : Cdb) : Cdb.Dels db db := ⟨[], by simp, by simp, by simp⟩

theorem Cdb.Dels.trans {a b c : Cdb} (h1 : Cdb.Dels a b) (h2 : Cdb.Dels b c) : Cdb.Dels a c := by
  obtain ⟨d1, e1, n1, l1⟩ := h1
  obtain ⟨d2, e2, n2, l2⟩ := h2
  refine ⟨d1 ++ d2, by rw [e2, e1]; simp, fun x hx => (List.mem_append.1 hx).elim (n1 x) (n2 x), ?_⟩
  rw [bag_append, add_comm (bag d1), ← add_assoc]
  exact (Multiset.add_le_add_right l2).trans l1

theorem Cdb.Dels.one {db db' : Cdb} (hw : db.WF) (hw' : db'.WF) {cid : Nat} (h : ∀ i, i ≠ cid → db'.clause i = db.clause i)
    (hne : (db.clause cid).lits ≠ []) (h' : (db'.clause cid).lits = []) (hc : db'.cert = db.cert ++ [.del (db.clause cid).lits]) : Cdb.Dels db db' :=
  ⟨[(db.clause cid).lits], by rw [hc]; rfl, by simpa using hne, by simpa using lives_del hw hw' h hne h'⟩

theorem Cdb.Dels.remove {db db' : Cdb} (hw : db.WF) {cid : Nat} (e : db.removeClause cid = some db') : Cdb.Dels db db' := by
  obtain ⟨w, hne, hc, -, hcert⟩ := Cdb.removeClause_spec hw e
  exact .one hw w (fun i hi => by rw [hc, upd_of_ne _ _ hi]) hne (by rw [hc]; simp) hcert

theorem Cdb.Dels.foldl : ∀ {cids : List Nat} {db db' : Cdb}, db.WF → cids.foldlM Cdb.removeClause db = some db' → Cdb.Dels db db'
  | [], db, db', _, e => by simp at e; subst e; exact .refl _
  | cid :: cids, db, db', hw, e => by
    rw [List.foldlM_cons] at e
    cases h : db.removeClause cid with
    | none => rw [h] at e; simp at e
    | some d =>
      rw [h] at e
      exact (Cdb.Dels.remove hw h).trans (Cdb.Dels.foldl (Cdb.removeClause_spec hw h).1 e)

end Splr
