import Verif.Lemmas.Gone
/-! The eliminator only appends to the trail, and eliminates variables only by its command for that. -/
namespace Splr
open Stk Heap

/-- At the root, `s'` has the trail of `s` and possibly more. -/
structure Longer (s s' : Stk) : Prop where
  lim : s'.lim = []
  tr : s.trail <+: s'.trail
  gone : ∀ v, Gone s' v → Gone s v

theorem Longer.refl {s : Stk} (h : s.lim = []) : Longer s s := ⟨h, List.prefix_refl _, fun _ h => h⟩

theorem Longer.trans {a b c : Stk} (h1 : Longer a b) (h2 : Longer b c) : Longer a c := ⟨h2.lim, h1.tr.trans h2.tr, fun v h => h1.gone v (h2.gone v h)⟩

theorem assignRootRes_longer {s : Stk} {db : Cdb} {l : Lit} (hl : s.lim = []) {y : DS} (e : s.assignRootRes db l = .ok y) :
    Longer s y.2 ∧ y.2.trail.length ≤ s.trail.length + 1 := by
  have hgn : ∀ v, Gone y.2 v → Gone s v := fun v => gone_assignRootRes e
  have hc0 : s.cancelUntil noLow 0 = s := cancelUntil_noop (by unfold Stk.dl; rw [hl]; simp)
  unfold Stk.assignRootRes Stk.assignRoot at e
  rw [hc0] at e
  simp only [] at e
  cases h : s.assign l.var with
  | none => rw [h] at e; simp only [] at e; cases e; exact ⟨⟨by simpa [makeAsserted] using hl, by simp [makeAsserted], hgn⟩, by simp [makeAsserted]⟩
  | some b =>
    rw [h] at e
    simp only [] at e
    cases hb : b == l.pos <;> rw [hb] at e
    · simp at e
    · cases e; exact ⟨⟨hl, List.prefix_refl _, hgn⟩, Nat.le_succ _⟩

theorem dropClause_stk {x : DS} {e : El} {cid : Nat} {y : DS × El} (h : dropClause x e cid = .ok y) : y.1.2 = x.2 := by
  unfold dropClause at h
  simp only [] at h
  obtain ⟨z, e1, e2⟩ := Res.bind_ok h
  cases e2
  unfold Cdb.removeRes at e1
  split at e1
  · simp at e1
  · cases e1; rfl

theorem trySubsume_stk {x : DS} {e : El} {cid did : Nat} {y : DS × El} (h : trySubsume x e cid did = .ok y) : y.1.2 = x.2 := by
  unfold trySubsume at h
  split at h
  · have := dropClause_stk h; exact this
  · cases h; rfl

theorem strengthen_longer {x : DS} {e : El} {cid : Nat} {l : Lit} {y : DS × El} (hl : x.2.lim = []) (h : strengthen x e cid l = .ok y) :
    Longer x.2 y.1.2 ∧ y.1.2.trail.length ≤ x.2.trail.length + 1 := by
  unfold strengthen at h
  split at h
  · cases h; exact ⟨.refl hl, Nat.le_succ _⟩
  · rw [dropClause_stk h]; exact ⟨.refl hl, by simp⟩
  · obtain ⟨z, e1, e2⟩ := Res.bind_ok h
    have hz := dropClause_stk e1
    simp only [] at hz
    split at e2
    · obtain ⟨w, e3, e4⟩ := Res.bind_ok e2
      cases e4
      have := assignRootRes_longer (by rw [hz]; exact hl) e3
      rw [hz] at this; exact this
    · cases e2; rw [hz]; exact ⟨.refl hl, Nat.le_succ _⟩
    · simp at e2
  · simp at h

theorem tryLifted_longer {x : DS} {e : El} {did : Nat} {l : Lit} {y : DS × El} (hl : x.2.lim = []) (h : tryLifted x e l did = .ok y) :
    Longer x.2 y.1.2 ∧ y.1.2.trail.length ≤ x.2.trail.length + 1 := by
  unfold tryLifted at h
  split at h
  · exact strengthen_longer hl h
  · cases h; exact ⟨.refl hl, Nat.le_succ _⟩

theorem addCid_stk (evo : Nat) (x : DS) (e : El) (cid : Nat) : (addCid evo x e cid).1.2 = x.2 := by
  unfold addCid; split <;> rfl

theorem resolveOne_longer {evo v i j : Nat} {y z : DS × El} (hl : y.1.2.lim = []) (h : resolveOne evo v i j y = .ok z) : Longer y.1.2 z.1.2 := by
  unfold resolveOne at h
  simp only [] at h
  split at h
  · cases h; exact .refl hl
  · split at h
    · cases h; exact .refl hl
    · simp at h
    · obtain ⟨w, e3, e4⟩ := Res.bind_ok h
      cases e4
      exact (assignRootRes_longer hl e3).1
  · split at h
    · simp at h
    · cases h; rw [addCid_stk]; exact .refl hl
    · cases h; exact .refl hl

theorem resolveAll_longer {evo v : Nat} : ∀ {ps : List (Nat × Nat)} {y z : DS × El}, y.1.2.lim = [] → resolveAll evo v ps y = .ok z → Longer y.1.2 z.1.2
  | [], y, z, hl, h => by cases h; exact .refl hl
  | (i, j) :: ps, y, z, hl, h => by
    unfold resolveAll at h
    obtain ⟨w, e3, e4⟩ := Res.bind_ok h
    have h1 := resolveOne_longer hl e3
    exact h1.trans (resolveAll_longer h1.lim e4)

theorem PSteps.trail_prefix {db : Cdb} {s : Stk} {db' : Cdb} {s' : Stk} (h : PSteps db s db' s') : s.trail <+: s'.trail := by
  induction h with
  | refl => exact List.prefix_refl _
  | cons h _ ih =>
    refine List.IsPrefix.trans ?_ ih
    cases h with
    | imply l r hn hr => rw [(assignImpl_fields _ l r _).2.2.2.1]; simp
    | _ => exact List.prefix_refl _

theorem eliminateVar_longer {evo v : Nat} {x : DS} {e : El} {w : DS × El} (hi : RInv x.1 x.2) (hdm : Dom x.1 x.2) (hl : x.2.lim = []) (ho : OccInv e x.1 x.2)
    (hn : x.2.assign v = none) (hab : e.aborted v = false) (h : eliminateVar evo v x e = .ok w) :
    Longer x.2 w.1.2 ∧ ∀ u, w.1.2.elim u = true ↔ u = v ∨ x.2.elim u = true := by
  obtain ⟨db, s⟩ := x
  have hsh := eliminateVar_shape (evo := evo) hi hdm hl ho hn hab
  have h' := h
  rw [h] at hsh
  obtain ⟨pos, neg, u, z, ed, rfl⟩ := hsh
  obtain ⟨e0, hk⟩ := ed.hk
  obtain ⟨f1, f2, f3, f4, f5, f6, f7, f8, f9, f10⟩ := makeEliminated_fields ed.t.rinv.inv hk.un
  unfold eliminateVar at h'
  simp only [] at h'
  obtain ⟨u1, e1, h'⟩ := Res.bind_ok h'
  obtain ⟨u2, e2, h'⟩ := Res.bind_ok h'
  have hlg := resolveAll_longer hl e1
  simp only [Res.ok.injEq, Prod.mk.injEq] at h'
  have h2 : Longer s (u2.1.2.makeEliminated v) ∧ True := by
    have h3 := dropAll_stk e2
    rw [h'.1.2]
    refine ⟨?_, trivial⟩
    rw [← h'.1.2, h3]
    have e5 : u1.1.2.makeEliminated v = u.1.2.makeEliminated v := by rw [← h3, h'.1.2, ed.hd.stk]
    have e6 : u1.1.2.assign v = none := by
      have : (u1.1.2.makeEliminated v).assign = u1.1.2.assign := by unfold makeEliminated; split <;> rfl
      rw [← this, e5, f1]; exact hk.un
    have e8 : ∀ w, Gone (u1.1.2.makeEliminated v) w → Gone s w := by
      intro w hw
      refine hlg.gone w ?_
      unfold makeEliminated at hw
      split at hw
      · exact hw
      · refine ⟨hw.1, fun hm => hw.2 ?_⟩
        obtain ⟨l, h1, rfl⟩ := List.mem_map.1 hm
        refine List.mem_map.2 ⟨l, List.mem_filter.2 ⟨h1, ?_⟩, rfl⟩
        have : l.var ≠ v := fun e => hw.1 (by show u1.1.2.assign l.var = none; rw [e]; exact e6)
        simpa using this
    refine ⟨by rw [e5, f5]; exact hk.lim, ?_, e8⟩
    have e7 : (u1.1.2.makeEliminated v).trail = u1.1.2.trail.filter (·.var ≠ v) ∨ (u1.1.2.makeEliminated v).trail = u1.1.2.trail := by
      unfold makeEliminated; split
      · exact .inr rfl
      · exact .inl rfl
    rcases e7 with e7 | e7
    · rw [e7]
      obtain ⟨t, ht⟩ := hlg.tr
      rw [← ht, List.filter_append, List.filter_eq_self.2]
      · simp
      · intro l hm
        have : (l.var ≠ v) := by
          rintro rfl
          exact tr_assigned (hi.inv.tv l hm) hn
        simpa using this
    · rw [e7]; exact hlg.tr
  refine ⟨?_, ?_⟩
  · have := h2.1; rw [h'.1.2] at this; exact this
  · intro w
    show (z.1.2.makeEliminated v).elim w = true ↔ _
    rw [ed.hd.stk, f9, ed.t.sp.elim, upd_apply]
    split <;> simp_all

/-- From `y` to `z`: the trail is kept, variables stay eliminated, no literal comes into the clauses, what is given up stays given up. -/
structure Grow (y z : DS × El) : Prop where
  lng : Longer y.1.2 z.1.2
  elim : ∀ v, y.1.2.elim v = true → z.1.2.elim v = true
  sup : Supp y.1.1 z.1.1
  ab : Ab y.2 z.2

theorem Grow.trans {a b c : DS × El} (h1 : Grow a b) (h2 : Grow b c) : Grow a c :=
  ⟨h1.lng.trans h2.lng, fun v h => h2.elim v (h1.elim v h), h1.sup.trans h2.sup, fun v h => h2.ab v (h1.ab v h)⟩

theorem EOK.lim {F : Form} {s0 : Stk} {recs : List Rec} {y : DS × El} (h : EOK F s0 recs y) : y.1.2.lim = [] := by
  obtain ⟨_, _, _, hl, _⟩ := h; exact hl

theorem EOK.dom {F : Form} {s0 : Stk} {recs : List Rec} {y : DS × El} (h : EOK F s0 recs y) : Dom y.1.1 y.1.2 := by
  obtain ⟨_, g, _⟩ := h; exact g.dom

theorem EOK.rinv {F : Form} {s0 : Stk} {recs : List Rec} {y : DS × El} (h : EOK F s0 recs y) : RInv y.1.1 y.1.2 := by
  obtain ⟨_, g, _⟩ := h; exact g.rinv

theorem EOK.occ {F : Form} {s0 : Stk} {recs : List Rec} {y : DS × El} (h : EOK F s0 recs y) : OccInv y.2 y.1.1 y.1.2 := by
  obtain ⟨_, _, _, _, h, _⟩ := h; exact h

theorem EOK.nv {F : Form} {s0 : Stk} {recs : List Rec} {y : DS × El} (h : EOK F s0 recs y) : y.1.2.numVars = s0.numVars := by
  obtain ⟨_, _, _, _, _, _, _, h⟩ := h; exact h

theorem Grow.refl {y : DS × El} (h : y.1.2.lim = []) : Grow y y := ⟨.refl h, fun _ h => h, .refl _, fun _ h => h⟩

/-- The clauses and the trail are the same. -/
theorem Grow.same {y z : DS × El} (h : y.1.2.lim = []) (e : z.1 = y.1) (ha : Ab y.2 z.2) : Grow y z :=
  ⟨by rw [e]; exact .refl h, by rw [e]; exact fun _ h => h, by rw [e]; exact .refl _, ha⟩

theorem runCmd_grow {F : Form} {s0 : Stk} {recs : List Rec} {evo : Nat} {y z : DS × El} {c : ECmd} (h : EOK F s0 recs y) (e : runCmd evo y c = .ok z) :
    Grow y z ∧ ((∀ v, c ≠ .elimVar v) → z.1.2.elim = y.1.2.elim) := by
  have hl := h.lim
  have hi := h.rinv
  have ho := h.occ
  obtain ⟨hsu, hab⟩ := runCmd_supp hi e
  cases c with
  | subsume cid did =>
    unfold runCmd at e
    simp only [] at e
    split at e
    · cases e; exact ⟨.refl hl, fun _ => rfl⟩
    · have := trySubsume_stk e
      exact ⟨⟨by rw [this]; exact .refl hl, by rw [this]; exact fun _ h => h, hsu, hab⟩, fun _ => by rw [this]⟩
  | lifted l did =>
    unfold runCmd at e
    simp only [] at e
    split at e
    · cases e; exact ⟨.refl hl, fun _ => rfl⟩
    · rename_i hc
      simp only [not_or, not_not] at hc
      have hg := rg_tryLifted (r := true) (did := did) hi hl ho hc.1
      rw [e] at hg
      have := hg.1.sp.elim
      exact ⟨⟨(tryLifted_longer hl e).1, by rw [this]; exact fun _ h => h, hsu, hab⟩, fun _ => this⟩
  | elimVar v =>
    unfold runCmd at e
    simp only [] at e
    split at e
    · cases e; exact ⟨.refl hl, fun _ => rfl⟩
    · rename_i hc
      simp only [not_or, not_not, Bool.not_eq_true, not_lt] at hc
      have := eliminateVar_longer hi h.dom hl ho hc.2.2.2.1 hc.2.2.2.2 e
      exact ⟨⟨this.1, fun u hu => (this.2 u).2 (.inr hu), hsu, hab⟩, fun hv => absurd rfl (hv v)⟩
  | propagate =>
    have hg := rg_propCmd (r := true) hi hl ho
    simp only [runCmd] at e
    rw [e] at hg
    obtain ⟨x, e1, e2⟩ := Res.bind_ok e
    cases e2
    have := hg.1.sp.elim
    have hgd := propagateSandbox_good hi
    cases hp : propagateSandbox y.1.1 y.1.2 with
    | ok db s =>
      rw [hp] at e1 hgd
      cases e1
      exact ⟨⟨⟨hg.2.lim, hgd.trail_prefix, hgd.gone⟩, by rw [this]; exact fun _ h => h, hsu, hab⟩, fun _ => this⟩
    | _ => rw [hp] at e1; simp [PRes.toRes] at e1
  | retain v sift => cases e; exact ⟨⟨.refl hl, fun _ h => h, hsu, hab⟩, fun _ => rfl⟩

end Splr
