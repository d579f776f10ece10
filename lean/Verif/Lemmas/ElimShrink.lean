import Verif.Lemmas.ElimLoop
/-! The eliminator brings no literal into the clauses that was in none of them, and lists given up are not used again. -/
namespace Splr
open Stk Heap

/-- A literal in a clause of `db'` is in a clause of `db`. -/
def Supp (db db' : Cdb) : Prop := ∀ l, (∃ i, l ∈ (db'.clause i).lits) → ∃ i, l ∈ (db.clause i).lits

/-- Every clause of `db'` is part of the clause of `db` with that number. -/
def Shr (db db' : Cdb) : Prop := ∀ i, ∀ l ∈ (db'.clause i).lits, l ∈ (db.clause i).lits

/-- What is given up stays given up. -/
def Ab (e e' : El) : Prop := ∀ v, e.aborted v = true → e'.aborted v = true

theorem Supp.refl (db : Cdb) : Supp db db := fun _ h => h

theorem Supp.trans {a b c : Cdb} (h1 : Supp a b) (h2 : Supp b c) : Supp a c := fun l h => h1 l (h2 l h)

theorem Shr.refl (db : Cdb) : Shr db db := fun _ _ h => h

theorem Shr.trans {a b c : Cdb} (h1 : Shr a b) (h2 : Shr b c) : Shr a c := fun i l h => h1 i l (h2 i l h)

theorem Shr.supp {a b : Cdb} (h : Shr a b) : Supp a b := fun l ⟨i, hi⟩ => ⟨i, h i l hi⟩

theorem shr_of_eq {a b : Cdb} (h : ∀ i, (b.clause i).lits = (a.clause i).lits) : Shr a b := fun i l hl => by rw [h i] at hl; exact hl

theorem dropClause_shr {x : DS} {e : El} {cid : Nat} {y : DS × El} (h : dropClause x e cid = .ok y) :
    Shr x.1 y.1.1 ∧ y.2.aborted = e.aborted ∧ (y.1.1.clause cid).lits = [] := by
  unfold dropClause at h
  simp only [] at h
  obtain ⟨w, e1, e2⟩ := Res.bind_ok h
  cases e2
  unfold Cdb.removeRes at e1
  split at e1
  · simp at e1
  · rename_i db1 e3
    cases e1
    refine ⟨fun i l hl => ?_, (removeCid_spec _ _ _ _).1, ?_⟩
    · have := removeClause_lits e3 i l hl
      rw [(flags_setLinked x.1 cid false).lits] at this
      exact this
    · unfold Cdb.removeClause at e3
      split at e3
      · simp only [Option.some.injEq] at e3
        rw [← e3]
        simp [Cdb.setC]
      · simp at e3

theorem trySubsume_shr {x : DS} {e : El} {cid did : Nat} {y : DS × El} (h : trySubsume x e cid did = .ok y) : Shr x.1 y.1.1 ∧ y.2.aborted = e.aborted := by
  unfold trySubsume at h
  split at h
  · obtain ⟨h1, h2, -⟩ := dropClause_shr h
    refine ⟨Shr.trans (fun i l hl => ?_) h1, h2⟩
    simp only [] at hl
    split at hl
    · exact hl
    · simp only [Cdb.setC, upd_apply] at hl
      split at hl
      · rename_i e; subst e; exact hl
      · exact hl
  · cases h; exact ⟨.refl _, rfl⟩

theorem assignRootRes_db {s : Stk} {db : Cdb} {l : Lit} {y : DS} (e : s.assignRootRes db l = .ok y) : y.1 = db := by
  unfold Stk.assignRootRes at e
  split at e
  · cases e; rfl
  · cases e

theorem strengthen_shr {x : DS} {e : El} {cid : Nat} {l : Lit} {y : DS × El} (hw : x.1.WF) (hl : l ∈ (x.1.clause cid).lits) (h : strengthen x e cid l = .ok y) :
    Shr x.1 y.1.1 ∧ y.2.aborted = e.aborted ∧ l ∉ (y.1.1.clause cid).lits := by
  obtain ⟨db', r, e1, -, ho, hk, -⟩ := Cdb.transformByElimination_spec hw hl
  unfold strengthen at h
  rw [e1] at h
  have hs : Shr x.1 db' := by
    intro i m hm
    by_cases hi : i = cid
    · subst hi
      cases ho with
      | unit a h1 h2 => rw [h2] at hm; rcases h1 with h1 | h1 <;> rw [h1] <;> simp at hm ⊢ <;> tauto
      | registered reg a b h1 hr h2 => rw [h2] at hm; exact hm
      | clause h1 h2 => rw [h2] at hm; exact (List.mem_filter.1 hm).1
    · rw [hk i hi] at hm; exact hm
  cases ho with
  | unit a h1 h2 =>
    obtain ⟨z, e3, e4⟩ := Res.bind_ok h
    obtain ⟨d1, d2, d3⟩ := dropClause_shr e3
    have hs' : Shr x.1 z.1.1 := hs.trans d1
    split at e4
    · obtain ⟨w, e5, e6⟩ := Res.bind_ok e4
      cases e6
      have := assignRootRes_db e5
      simp only []
      rw [this]
      exact ⟨hs', d2, by rw [d3]; simp⟩
    · cases e4; exact ⟨hs', d2, by rw [d3]; simp⟩
    · cases e4
  | registered reg a b h1 hr h2 =>
    obtain ⟨d1, d2, d3⟩ := dropClause_shr h
    exact ⟨hs.trans d1, d2, by rw [d3]; simp⟩
  | clause h1 h2 =>
    cases h
    exact ⟨hs, by simp, by simp only []; rw [h2]; simp⟩

theorem tryLifted_shr {x : DS} {e : El} {did : Nat} {l : Lit} {y : DS × El} (hw : x.1.WF) (h : tryLifted x e l did = .ok y) :
    Shr x.1 y.1.1 ∧ y.2.aborted = e.aborted ∧ l.neg ∉ (y.1.1.clause did).lits := by
  unfold tryLifted at h
  split at h
  · rename_i hl; exact strengthen_shr hw hl h
  · rename_i hl; cases h; exact ⟨.refl _, rfl, hl⟩

theorem addCid_ab (evo : Nat) (x : DS) (e : El) (cid : Nat) : Ab e (addCid evo x e cid).2 := by
  unfold addCid
  split
  · exact fun _ h => h
  · exact (addLits_spec evo x.2.elim cid _ e).2.1

theorem newClause_shr {db db' : Cdb} {level : Nat → Nat} {vec : Cls} {b : Bool} {r : RefClause} (e : db.newClause level vec b = some (db', r)) :
    ∀ i, ∀ l ∈ (db'.clause i).lits, l ∈ vec ∨ l ∈ (db.clause i).lits := by
  unfold Cdb.newClause at e
  split at e
  · split at e
    · cases e; exact fun i l h => .inr h
    · simp only [Option.some.injEq, Prod.mk.injEq] at e
      obtain ⟨e, -⟩ := e
      intro i
      rw [← e]
      have hat : ∀ (d : Cdb) (c : Nat) (x y : Lit) (b : Bool), (d.attach c x y b).clause = d.clause := by
        intro d c x y b; unfold Cdb.attach; split <;> rfl
      rw [hat]
      simp only [Cdb.alloc, Cdb.log]
      cases db.free with
      | nil =>
        simp only [upd_apply]
        split
        · exact fun l h => .inl h
        · exact fun l h => .inr h
      | cons c fr =>
        simp only [upd_apply]
        split
        · exact fun l h => .inl h
        · exact fun l h => .inr h
  · simp at e

theorem resolveOne_supp {evo v i j : Nat} {y z : DS × El} (e : resolveOne evo v i j y = .ok z) : Supp y.1.1 z.1.1 ∧ Ab y.2 z.2 := by
  have hm : ∀ x ∈ mergeLits v (y.1.1.clause i).lits (y.1.1.clause j).lits, ∃ i, x ∈ (y.1.1.clause i).lits := fun x hx =>
    (mem_mergeLits hx).elim (fun h => ⟨i, h⟩) (fun h => ⟨j, h⟩)
  unfold resolveOne at e
  simp only [] at e
  revert hm e
  generalize mergeLits v (y.1.1.clause i).lits (y.1.1.clause j).lits = vec
  intro e hm
  split at e
  · cases e; exact ⟨.refl _, fun _ h => h⟩
  · split at e
    · cases e; exact ⟨.refl _, fun _ h => h⟩
    · cases e
    · obtain ⟨x, e1, e2⟩ := Res.bind_ok e
      cases e2
      have := assignRootRes_db e1
      refine ⟨?_, fun _ h => h⟩
      simp only []
      rw [this]; exact .refl _
  · split at e
    · cases e
    · rename_i db1 ci hc
      have hn := newClause_shr hc
      cases e
      refine ⟨?_, addCid_ab _ _ _ _⟩
      rintro l ⟨k, hk⟩
      rw [(flags_addCid evo (db1, y.1.2) y.2 ci).lits] at hk
      rcases hn k l hk with h | h
      · exact hm l h
      · exact ⟨k, h⟩
    · rename_i db1 r _ hc
      have hn := newClause_shr hc
      cases e
      refine ⟨?_, fun _ h => h⟩
      rintro l ⟨k, hk⟩
      rcases hn k l hk with h | h
      · exact hm l h
      · exact ⟨k, h⟩

theorem resolveAll_supp {evo v : Nat} : ∀ {ps : List (Nat × Nat)} {y z : DS × El}, resolveAll evo v ps y = .ok z → Supp y.1.1 z.1.1 ∧ Ab y.2 z.2
  | [], y, z, e => by cases e; exact ⟨.refl _, fun _ h => h⟩
  | (i, j) :: ps, y, z, e => by
    unfold resolveAll at e
    obtain ⟨w, e3, e4⟩ := Res.bind_ok e
    obtain ⟨a1, a2⟩ := resolveOne_supp e3
    obtain ⟨b1, b2⟩ := resolveAll_supp e4
    exact ⟨a1.trans b1, fun v h => b2 v (a2 v h)⟩

theorem dropAll_shr : ∀ {cids : List Nat} {y z : DS × El}, dropAll cids y = .ok z → Shr y.1.1 z.1.1 ∧ z.2.aborted = y.2.aborted
  | [], y, z, e => by cases e; exact ⟨.refl _, rfl⟩
  | c :: cids, y, z, e => by
    unfold dropAll at e
    split at e
    · exact dropAll_shr e
    · obtain ⟨w, e3, e4⟩ := Res.bind_ok e
      obtain ⟨a1, a2, -⟩ := dropClause_shr e3
      obtain ⟨b1, b2⟩ := dropAll_shr e4
      exact ⟨a1.trans b1, b2.trans a2⟩

theorem eliminateVar_supp {evo v : Nat} {x : DS} {e : El} {w : DS × El} (hab : e.aborted v = false) (h : eliminateVar evo v x e = .ok w) :
    Supp x.1 w.1.1 ∧ Ab e w.2 := by
  unfold eliminateVar at h
  simp only [] at h
  obtain ⟨u1, e1, h⟩ := Res.bind_ok h
  obtain ⟨u2, e2, h⟩ := Res.bind_ok h
  cases h
  obtain ⟨a1, a2⟩ := resolveAll_supp e1
  obtain ⟨b1, b2⟩ := dropAll_shr e2
  refine ⟨a1.trans b1.supp, fun u hu => ?_⟩
  show (upd u2.2.aborted v false) u = true
  rw [upd_apply]
  split
  · rename_i h; subst h; rw [hab] at hu; cases hu
  · rw [b2]; exact a2 u hu

theorem runCmd_shr {evo : Nat} {y z : DS × El} {c : ECmd} (hi : RInv y.1.1 y.1.2) (e : runCmd evo y c = .ok z) (hc : ∀ v, c ≠ .elimVar v) : Shr y.1.1 z.1.1 := by
  cases c with
  | subsume cid did =>
    unfold runCmd at e
    simp only [] at e
    split at e
    · cases e; exact .refl _
    · exact (trySubsume_shr e).1
  | lifted l did =>
    unfold runCmd at e
    simp only [] at e
    split at e
    · cases e; exact .refl _
    · exact (tryLifted_shr hi.wf e).1
  | elimVar v => exact absurd rfl (hc v)
  | propagate =>
    simp only [runCmd] at e
    obtain ⟨x, e1, e2⟩ := Res.bind_ok e
    cases e2
    have hgd := propagateSandbox_good hi
    cases hp : propagateSandbox y.1.1 y.1.2 with
    | ok db s =>
      rw [hp] at e1 hgd; cases e1
      obtain ⟨-, hs, -⟩ := PSteps.allR hgd hi
      exact fun i l hl => (hs.perm i).mem_iff.1 hl
    | _ => rw [hp] at e1; simp [PRes.toRes] at e1
  | retain v sift => cases e; exact .refl _

theorem runCmd_supp {evo : Nat} {y z : DS × El} {c : ECmd} (hi : RInv y.1.1 y.1.2) (e : runCmd evo y c = .ok z) : Supp y.1.1 z.1.1 ∧ Ab y.2 z.2 := by
  by_cases hc : ∃ v, c = .elimVar v
  · obtain ⟨v, rfl⟩ := hc
    unfold runCmd at e
    simp only [] at e
    split at e
    · cases e; exact ⟨.refl _, fun _ h => h⟩
    · rename_i hc
      simp only [not_or, not_not, Bool.not_eq_true, not_lt] at hc
      exact eliminateVar_supp hc.2.2.2.2 e
  · have hc : ∀ v, c ≠ .elimVar v := fun v h => hc ⟨v, h⟩
    refine ⟨(runCmd_shr hi e hc).supp, ?_⟩
    cases c with
    | subsume cid did =>
      unfold runCmd at e
      simp only [] at e
      split at e
      · cases e; exact fun _ h => h
      · have := (trySubsume_shr e).2
        exact fun v h => by rw [this]; exact h
    | lifted l did =>
      unfold runCmd at e
      simp only [] at e
      split at e
      · cases e; exact fun _ h => h
      · have := (tryLifted_shr hi.wf e).2.1
        exact fun v h => by rw [this]; exact h
    | elimVar v => exact absurd rfl (hc v)
    | propagate =>
      simp only [runCmd] at e
      obtain ⟨x, e1, e2⟩ := Res.bind_ok e
      cases e2
      exact fun _ h => h
    | retain v sift => cases e; exact fun _ h => h

/-- No clause has more than `n` literals. -/
def Short (n : Nat) (db : Cdb) : Prop := ∀ i, (db.clause i).lits.length ≤ n

theorem Shr.short {a b : Cdb} {n : Nat} (h : Shr a b) (hw : b.WF) (hs : Short n a) : Short n b := fun i =>
  Nat.le_trans ((Cdb.nodup_of_map_var (hw.nd i)).subperm fun l hl => h i l hl).length_le (hs i)

end Splr
