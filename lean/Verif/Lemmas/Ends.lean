import Verif.Lemmas.RootSpec
/-! Nothing panics and all loops end: propagation and the root level. -/
namespace Splr
open Stk

/-- No panic, and the bounds on the iterations suffice. -/
def PRes.Ends : PRes → Prop
  | .panic => False
  | .fuel => False
  | _ => True

/-- No panic, and the bounds on the iterations suffice. -/
def Res.Ends {α : Type} : Res α → Prop
  | .panic => False
  | .fuel => False
  | _ => True

theorem Res.Ends.bind {α β : Type} {r : Res α} {f : α → Res β} (h : r.Ends) (hf : ∀ a, r = .ok a → (f a).Ends) : (r.bind f).Ends := by
  cases r with
  | ok a => exact hf a rfl
  | _ => exact h

theorem PRes.Ends.toRes {r : PRes} (h : r.Ends) : r.toRes.Ends := by cases r <;> exact h

/-- Few enough variables. -/
def Few (s : Stk) : Prop := s.numVars < 65535

theorem trail_le {db : Cdb} {s : Stk} (hi : Inv db s) (hd : Dom db s) : s.trail.length ≤ s.numVars := by
  have := length_le_of_vars hi.nd (n := s.numVars) fun v hv => by
    obtain ⟨l, hl, rfl⟩ := List.mem_map.1 hv
    have := hd.as l.var (tr_assigned (hi.tv l hl))
    exact ⟨this.1, this.2.1⟩
  simpa using this

theorem not_huge {db : Cdb} {s : Stk} (hw : db.WF) (hd : Dom db s) (hf : Few s) : ¬ db.Huge := by
  rintro ⟨i, hi⟩
  have := length_le_of_vars (hw.nd i) (n := s.numVars) fun v hv => by
    obtain ⟨l, hl, rfl⟩ := List.mem_map.1 hv
    have := hd.cl i l hl
    exact ⟨this.1, this.2.1⟩
  rw [List.length_map] at this
  unfold Few at hf
  omega

theorem Dom.steps {db : Cdb} {s : Stk} {db' : Cdb} {s' : Stk} (hd : Dom db s) (hi : RInv db s) (h : PSteps db s db' s') : Dom db' s' :=
  (h.trn (k := true) (r := true) hi).dom hd

theorem PSteps.numVars {db : Cdb} {s : Stk} {db' : Cdb} {s' : Stk} (h : PSteps db s db' s') : s'.numVars = s.numVars := h.sp.numVars

theorem PSteps.qhead {db : Cdb} {s : Stk} {db' : Cdb} {s' : Stk} (h : PSteps db s db' s') : s.qhead ≤ s'.qhead := by
  induction h with
  | refl => exact Nat.le_refl _
  | cons h _ ih =>
    refine Nat.le_trans ?_ ih
    cases h with
    | imply l r hn hr => rw [(assignImpl_fields _ l r _).2.2.2.2.2.1]
    | advance => exact Nat.le_succ _
    | _ => exact Nat.le_refl _

theorem binLoop_fuel {p : Lit} {db : Cdb} : ∀ {bs : List (Lit × Nat)} {s : Stk}, binLoop p db bs s ≠ .fuel
  | [], s => by simp [binLoop]
  | (b, c) :: bs, s => by
    unfold binLoop
    split
    · exact binLoop_fuel
    · simp
    · exact binLoop_fuel

theorem watchLoop_fuel {sandbox : Bool} {p : Lit} : ∀ {n idx : Nat} {db : Cdb} {s : Stk}, watchLoop sandbox p n idx db s ≠ .fuel
  | 0, _, _, _ => by simp [watchLoop]
  | n + 1, idx, db, s => by
    unfold watchLoop
    split
    · simp
    split
    · exact watchLoop_fuel
    split
    · exact watchLoop_fuel
    have ih : ∀ idx db s, watchLoop sandbox p n idx db s ≠ .fuel := fun _ _ _ => watchLoop_fuel
    split
    · simp only []
      repeat' split
      all_goals first | exact ih _ _ _ | simp
    · simp

theorem propLit_fuel {sandbox : Bool} {p : Lit} {db : Cdb} {s : Stk} : propLit sandbox p db s ≠ .fuel := by
  unfold propLit
  split
  · exact watchLoop_fuel
  · exact binLoop_fuel

theorem propLoopSandbox_ends : ∀ {n : Nat} {db : Cdb} {s : Stk}, RInv db s → Dom db s → Few s → s.numVars < n + s.qhead →
    (propLoopSandbox n db s).Ends
  | 0, db, s, hi, hd, _, hn => by have := trail_le hi.inv hd; have := hi.inv.qh; omega
  | n + 1, db, s, hi, hd, hf, hn => by
    unfold propLoopSandbox
    cases hg : s.trail[s.qhead]? with
    | none => trivial
    | some p =>
      simp only []
      have st := advance_step (db := db) hg
      have hx := (st.allR hi).1
      have hp : ({ s with qhead := s.qhead + 1 } : Stk).tr p := hx.inv.tv p (List.mem_of_getElem? hg)
      have hl := propLit_good PK.rinv (sandbox := true) hx hp
      cases hr : propLit true p db { s with qhead := s.qhead + 1 } with
      | ok db1 s1 =>
        rw [hr] at hl
        simp only []
        have hq := hl.qhead
        simp only [] at hq
        have hv : s1.numVars = s.numVars := hl.numVars
        refine propLoopSandbox_ends (hl.allR hx).1 ((hd.steps hi st).steps hx hl) ?_ ?_
        · unfold Few at *; omega
        · omega
      | conflict db1 s1 l r => trivial
      | panic => rw [hr] at hl; exact not_huge hx.wf (hd.steps hi st) hf hl
      | fuel => exact propLit_fuel hr

theorem propagateSandbox_ends {db : Cdb} {s : Stk} (hi : RInv db s) (hd : Dom db s) (hf : Few s) : (propagateSandbox db s).Ends :=
  propLoopSandbox_ends hi hd hf (by unfold propFuel; omega)

theorem propLoop_ends {q : Nat} : ∀ {n : Nat} {db : Cdb} {s : Stk}, PInv db s → Dom db s → Few s → s.numVars < n + s.qhead →
    (propLoop q n db s).Ends
  | 0, db, s, hi, hd, _, hn => by have := trail_le hi.inv hd; have := hi.inv.qh; omega
  | n + 1, db, s, hi, hd, hf, hn => by
    unfold propLoop
    cases hg : s.trail[s.qhead]? with
    | none => trivial
    | some p =>
      simp only []
      have st := advance_step (db := db) hg
      have hx := (st.all hi).1
      have hp : ({ s with qhead := s.qhead + 1 } : Stk).tr p := hx.inv.tv p (List.mem_of_getElem? hg)
      have hl := propLit_good PK.pinv (sandbox := false) hx hp
      cases hr : propLit false p db { s with qhead := s.qhead + 1 } with
      | ok db1 s1 =>
        rw [hr] at hl
        simp only []
        have hy := (hl.all hx).1
        have hdy := (hd.steps hi.rinv st).steps hx.rinv hl
        have hu := reuse_good (q := q) hy
        have he := reuse_ends (q := q) hy
        cases hru : reuse db1 q s1 with
        | ok db2 s2 =>
          rw [hru] at hu
          simp only []
          have hq := (hl.trans hu).qhead
          simp only [] at hq
          have hv : s2.numVars = s.numVars := (hl.trans hu).numVars
          refine propLoop_ends (hu.all hy).1 (hdy.steps hy.rinv hu) ?_ ?_
          · unfold Few at *; omega
          · omega
        | conflict db2 s2 l r => trivial
        | panic => exact he.1 hru
        | fuel => exact he.2 hru
      | conflict db1 s1 l r => trivial
      | panic => rw [hr] at hl; exact not_huge hx.wf (hd.steps hi.rinv st) hf hl
      | fuel => exact propLit_fuel hr

theorem propagate_ends {q : Nat} {db : Cdb} {s : Stk} (hi : PInv db s) (hd : Dom db s) (hf : Few s) : (propagate q db s).Ends := by
  unfold propagate
  have hu := reuse_good (q := q) hi
  have he := reuse_ends (q := q) hi
  cases hru : reuse db q s with
  | ok db2 s2 =>
    rw [hru] at hu
    have hv : s2.numVars = s.numVars := hu.numVars
    refine propLoop_ends (hu.all hi).1 (hd.steps hi.rinv hu) ?_ ?_
    · unfold Few at *; omega
    · unfold propFuel; omega
  | conflict db2 s2 l r => trivial
  | panic => exact he.1 hru
  | fuel => exact he.2 hru

end Splr
