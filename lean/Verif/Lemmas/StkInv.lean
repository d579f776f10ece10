import Verif.Model.Stk
import Verif.Lemmas.CdbMove
/-! The invariant of the assignment stack. -/
namespace Splr

theorem litVal_true {a : Nat → Option Bool} {l : Lit} : litVal a l = some true ↔ a l.var = some l.pos := by
  unfold litVal; cases h : a l.var <;> simp

theorem litVal_false {a : Nat → Option Bool} {l : Lit} : litVal a l = some false ↔ a l.var = some (!l.pos) := by
  unfold litVal; cases h : a l.var with
  | none => simp
  | some b => cases b <;> cases l.pos <;> simp

theorem litVal_none {a : Nat → Option Bool} {l : Lit} : litVal a l = none ↔ a l.var = none := by
  unfold litVal; simp

/-- The database contains the binary clause of `a` and `b`. -/
def BinC (db : Cdb) (a b : Lit) : Prop := ∃ i, (db.clause i).lits = [a, b] ∨ (db.clause i).lits = [b, a]

namespace Stk

/-- The literal is true. -/
def tr (s : Stk) (l : Lit) : Prop := s.assign l.var = some l.pos

theorem val_true {s : Stk} {l : Lit} : s.val l = some true ↔ s.tr l := litVal_true
theorem val_false {s : Stk} {l : Lit} : s.val l = some false ↔ s.tr l.neg := litVal_false
theorem val_none {s : Stk} {l : Lit} : s.val l = none ↔ s.assign l.var = none := litVal_none

theorem tr_not_neg {s : Stk} {l : Lit} (h : s.tr l) : ¬ s.tr l.neg := by
  intro h2; unfold tr at *; rw [Lit.neg_var, h] at h2; simp at h2

theorem tr_cases (s : Stk) (l : Lit) : s.tr l ∨ s.tr l.neg ∨ s.assign l.var = none := by
  unfold tr; rw [Lit.neg_var, Lit.neg_pos]
  cases h : s.assign l.var with
  | none => simp
  | some b => cases b <;> cases l.pos <;> simp

theorem tr_var {s : Stk} {l m : Lit} (h1 : s.tr l) (h2 : s.tr m) (hv : l.var = m.var) : l = m := by
  rcases Lit.eq_or_eq_neg_of_var hv with e | e
  · exact e
  · subst e; exact absurd h1 (tr_not_neg h2)

/-- `m` is true and was so when the trail was `pre` (`m` occurs in it, or was archived before). -/
def Before (s : Stk) (pre : List Lit) (m : Lit) : Prop :=
  s.tr m ∧ (m ∈ pre ∨ m.var ∉ s.trail.map Lit.var)

/-- The recorded reason of `l`, assigned when the trail was `pre`. -/
def ReasonOK (db : Cdb) (s : Stk) (pre : List Lit) (l : Lit) : Prop :=
  match s.reason l.var with
  | .none => False
  | .decision k => s.level l.var = k ∧ (0 < k → s.lim[k - 1]? = some pre.length)
  | .binary m => BinC db l m.neg ∧ s.Before pre m
  | .impl cid => ∃ rest, (db.clause cid).lits = l :: rest ∧ ∀ x ∈ rest, s.Before pre x.neg

structure Inv (db : Cdb) (s : Stk) : Prop where
  nd : (s.trail.map Lit.var).Nodup
  tv : ∀ l ∈ s.trail, s.tr l
  arch : ∀ v, s.assign v ≠ none → v ∉ s.trail.map Lit.var → s.level v = 0
  root : ∀ v, s.assign v ≠ none → s.level v = 0 → s.reason v = .decision 0
  un : ∀ v, s.assign v = none → s.reason v = .none
  limLt : ∀ k ∈ s.lim, k < s.trail.length
  limInc : s.lim.Pairwise (· < ·)
  qh : s.qhead ≤ s.trail.length
  lev : ∀ pre l post, s.trail = pre ++ l :: post → s.level l.var = s.lim.countP (· ≤ pre.length)
  dec : ∀ pre l post, s.trail = pre ++ l :: post → pre.length ∈ s.lim → s.reason l.var = .decision (s.level l.var)
  rs : ∀ pre l post, s.trail = pre ++ l :: post → ReasonOK db s pre l

/-- A saved literal whose predecessors in the saved trail are `pre`. -/
def SavedAt (db : Cdb) (s : Stk) (pre : List Lit) (l : Lit) : Prop :=
  match s.reasonSaved l.var with
  | .none => False
  | .decision _ => True
  | .binary m => BinC db l m.neg ∧ (s.tr m ∨ m ∈ pre)
  | .impl cid => l ∈ (db.clause cid).lits ∧ (∀ x ∈ (db.clause cid).lits, x = l ∨ s.tr x.neg ∨ x.neg ∈ pre) ∧
      (s.assign l.var = none → (db.clause cid).lits[0]? = some l)

/-- The saved trail. -/
def SavedOK (db : Cdb) (s : Stk) : Prop := ∀ pre l post, s.saved = pre ++ l :: post → SavedAt db s pre l

/-- The evidence of a conflict: a clause of the database all of whose literals are false. -/
def ConfOK (db : Cdb) (s : Stk) (l : Lit) : Reason → Prop
  | .binary m => BinC db l m.neg ∧ s.tr l.neg ∧ s.tr m
  | .impl cid => (∃ rest, (db.clause cid).lits = l :: rest) ∧ ∀ x ∈ (db.clause cid).lits, s.tr x.neg
  | _ => False

theorem split_append {α} {t : List α} {x : α} {pre : List α} {l : α} {post : List α} (h : t ++ [x] = pre ++ l :: post) :
    (post = [] ∧ l = x ∧ pre = t) ∨ ∃ post', post = post' ++ [x] ∧ t = pre ++ l :: post' := by
  rcases List.eq_nil_or_concat post with rfl | ⟨post', y, rfl⟩
  · left
    have := List.append_inj' h rfl
    simp at this
    exact ⟨rfl, this.2.symm, this.1.symm⟩
  · right
    rw [List.concat_eq_append] at *
    have h2 : t ++ [x] = (pre ++ l :: post') ++ [y] := by rw [h]; simp
    have := List.append_inj' h2 rfl
    simp at this
    exact ⟨post', by rw [this.2], this.1⟩

theorem tr_assigned {s : Stk} {l : Lit} (h : s.tr l) : s.assign l.var ≠ none := by
  unfold tr at h; rw [h]; simp

/-- A true literal on the trail's variables is itself on the trail. -/
theorem Inv.mem_of_var {db : Cdb} {s : Stk} (h : Inv db s) {m : Lit} (ht : s.tr m) (hv : m.var ∈ s.trail.map Lit.var) :
    m ∈ s.trail := by
  obtain ⟨x, hx, e⟩ := List.mem_map.1 hv
  rw [tr_var ht (h.tv x hx) e.symm]; exact hx

/-- every true literal is on the trail or archived, hence `Before` the end of the trail -/
theorem Inv.before_end {db : Cdb} {s : Stk} (h : Inv db s) {m : Lit} (ht : s.tr m) : s.Before s.trail m := by
  refine ⟨ht, ?_⟩
  by_cases hv : m.var ∈ s.trail.map Lit.var
  · exact .inl (h.mem_of_var ht hv)
  · exact .inr hv

end Stk

/-! ## clause databases with the same clauses -/

/-- Clause by clause the same literals up to order, and the same flags. -/
structure Cdb.Same (db db' : Cdb) : Prop where
  perm : ∀ i, (db'.clause i).lits.Perm (db.clause i).lits
  learnt : ∀ i, (db'.clause i).learnt = (db.clause i).learnt
  rank : ∀ i, (db'.clause i).rank = (db.clause i).rank
  linked : ∀ i, (db'.clause i).occurLinked = (db.clause i).occurLinked
  bin : ∀ i, (db.clause i).lits.length = 2 → (db'.clause i).lits = (db.clause i).lits
  len : db'.len = db.len
  cert : db'.cert = db.cert

namespace Cdb.Same

theorem refl (db : Cdb) : Same db db := ⟨fun _ => .refl _, fun _ => rfl, fun _ => rfl, fun _ => rfl, fun _ _ => rfl, rfl, rfl⟩

theorem trans {a b c : Cdb} (h1 : Same a b) (h2 : Same b c) : Same a c :=
  ⟨fun i => (h2.perm i).trans (h1.perm i), fun i => (h2.learnt i).trans (h1.learnt i), fun i => (h2.rank i).trans (h1.rank i),
    fun i => (h2.linked i).trans (h1.linked i),
    fun i hi => by rw [h2.bin i (by rw [h1.bin i hi]; exact hi), h1.bin i hi], h2.len.trans h1.len, h2.cert.trans h1.cert⟩

theorem binC {db db' : Cdb} (h : Same db db') {a b : Lit} (hb : BinC db a b) : BinC db' a b := by
  obtain ⟨i, hi⟩ := hb
  exact ⟨i, by rw [h.bin i (by rcases hi with e | e <;> rw [e] <;> rfl)]; exact hi⟩

theorem mem {db db' : Cdb} (h : Same db db') (i : Nat) (l : Lit) : l ∈ (db'.clause i).lits ↔ l ∈ (db.clause i).lits :=
  (h.perm i).mem_iff

end Cdb.Same
end Splr
