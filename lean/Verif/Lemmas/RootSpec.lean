import Verif.Lemmas.Tr
/-! `clear_asserted_literals` and its parts. -/
namespace Splr
open Stk

/-- The state has no model, and the certificate says why. -/
def Refuted (db : Cdb) (s : Stk) (db' : Cdb) : Prop :=
  (∃ new, adds db'.cert = adds db.cert ++ new ∧ Chain (MC db s) new ∧ ∀ D, MC db s D → (∀ c ∈ new, Resp D c) → False) ∧
    (db.WF → SimBad db s db') ∧ (Dom db s → ∀ c ∈ adds db'.cert, Word s.numVars c)

theorem Refuted.after {k r : Bool} {db : Cdb} {s : Stk} {db1 : Cdb} {s1 : Stk} {db2 : Cdb} (h1 : Tr k r db s db1 s1) (h2 : Refuted db1 s1 db2) :
    Refuted db s db2 := by
  obtain ⟨n1, a1, c1, m1, -⟩ := h1.new
  obtain ⟨⟨n2, a2, c2, m2⟩, hb, hr⟩ := h2
  have hM : ∀ D, MC db s D → (∀ d ∈ n1, Resp D d) → MC db1 s1 D := fun D hD hr => ⟨m1 D hD hr, hD.2⟩
  refine ⟨⟨n1 ++ n2, by rw [a2, a1, List.append_assoc], c1.append c2 hM, fun D hD hr => ?_⟩, fun hw => (h1.sim hw).bad (hb h1.rinv.wf), fun hd => by
    rw [← h1.sp.numVars]; exact hr (h1.dom hd)⟩
  exact m2 D (hM D hD fun d hd => hr d (by simp [hd])) fun d hd => hr d (by simp [hd])

/-- Some clauses are added, some deleted, and there is no way out. -/
theorem Refuted.mk {db : Cdb} {s : Stk} {db' : Cdb} (new dels : List Cls) (hc : db'.cert = db.cert ++ (new.map .add ++ dels.map .del))
    (hch : Chain (MC db s) new) (h : ∀ D, MC db s D → (∀ c ∈ new, Resp D c) → False) (hd : ∀ c ∈ dels, c ≠ [])
    (hl : db.WF → bag dels ≤ db.lives + bag new) (hdom : Dom db s → ∀ c ∈ new, Word s.numVars c) : Refuted db s db' :=
  ⟨⟨new, by rw [hc]; simp, hch, h⟩, fun hw => SimBad.mk hw new dels hc hch h hd (hl hw), fun hd c hm => by
    rw [hc] at hm
    simp only [adds_append, adds_map, adds_map_del, List.append_nil, List.mem_append] at hm
    exact hm.elim (hd.ct c) (hdom hd c)⟩

theorem Refuted.now {db : Cdb} {s : Stk} {db' : Cdb} (hc : db'.cert = db.cert) (h : ∀ D, MC db s D → False) : Refuted db s db' :=
  .mk [] [] (by simp [hc]) .nil (fun D hD _ => h D hD) (by simp) (fun _ => Multiset.zero_le _) (by simp)

/-- What a function returning `MaybeInconsistent` may return. -/
def RG {α : Type} (k r : Bool) (db : Cdb) (s : Stk) (p : α → DS) (Q : α → Prop) : Res α → Prop
  | .ok a => Tr k r db s (p a).1 (p a).2 ∧ Q a
  | .unsat db' _ => Refuted db s db'
  | _ => True

theorem RG.bind {α β : Type} {k r : Bool} {db : Cdb} {s : Stk} {p : α → DS} {Q : α → Prop} {p' : β → DS} {Q' : β → Prop} {x : Res α}
    {f : α → Res β} (h : RG k r db s p Q x) (hf : ∀ a, Tr k r db s (p a).1 (p a).2 → Q a → RG k r (p a).1 (p a).2 p' Q' (f a)) :
    RG k r db s p' Q' (x.bind f) := by
  cases x with
  | ok a =>
    have := hf a h.1 h.2
    simp only [Res.bind]
    revert this
    cases f a with
    | ok b => exact fun hb => ⟨h.1.trans hb.1, hb.2⟩
    | unsat db' s' => exact fun hb => Refuted.after h.1 hb
    | _ => exact fun _ => trivial
  | unsat db' s' => exact h
  | _ => trivial

theorem RG.mono {α : Type} {k r : Bool} {db : Cdb} {s : Stk} {p : α → DS} {Q Q' : α → Prop} {x : Res α}
    (h : RG k r db s p Q x) (hq : ∀ a, Tr k r db s (p a).1 (p a).2 → Q a → Q' a) : RG k r db s p Q' x := by
  cases x with
  | ok a => exact ⟨h.1, hq a h.1 h.2⟩
  | _ => exact h

theorem RG.weaken {α : Type} {k r k' r' : Bool} {db : Cdb} {s : Stk} {p : α → DS} {Q : α → Prop} {x : Res α}
    (h : RG k r db s p Q x) (hk : k' = true → k = true) (hr : r' = true → r = true) : RG k' r' db s p Q x := by
  cases x with
  | ok a => exact ⟨h.1.weaken hk hr, h.2⟩
  | _ => exact h

theorem RG.after {α : Type} {k r : Bool} {db : Cdb} {s : Stk} {db1 : Cdb} {s1 : Stk} {p : α → DS} {Q : α → Prop} {x : Res α}
    (h1 : Tr k r db s db1 s1) (h : RG k r db1 s1 p Q x) : RG k r db s p Q x := by
  cases x with
  | ok a => exact ⟨h1.trans h.1, h.2⟩
  | unsat db' s' => exact Refuted.after h1 h
  | _ => trivial

/-! ## changes of the database -/

/-- The stack stays the same, the database changes. -/
theorem Tr.ofDb {k r : Bool} {db : Cdb} {s : Stk} {db' : Cdb} (hi' : RInv db' s) (new : List Cls)
    (dels : List Cls) (hcert : db'.cert = db.cert ++ (new.map .add ++ dels.map .del)) (hd : ∀ c ∈ dels, c ≠ [])
    (hlives : db.WF → db'.lives + bag dels ≤ db.lives + bag new) (hch : Chain (MC db s) new)
    (hlive : ∀ i, (db'.clause i).lits ≠ [] → (∃ j, (db.clause j).lits ≠ [] ∧ ∀ x, x ∈ (db'.clause i).lits ↔ x ∈ (db.clause j).lits) ∨
      ∃ c ∈ new, ∀ x, x ∈ (db'.clause i).lits ↔ x ∈ c)
    (hback : ∀ i, (db.clause i).lits ≠ [] → Prim (db.clause i) → (∃ l ∈ (db.clause i).lits, Root s l) ∨
      ∃ j, (db'.clause j).lits ≠ [] ∧ Prim (db'.clause j) ∧ ∀ x ∈ (db'.clause j).lits, x ∈ (db.clause i).lits)
    (hcov : k = true → ∀ i, (db.clause i).lits ≠ [] → (∃ l ∈ (db.clause i).lits, Root s l) ∨
      ∃ j, (db'.clause j).lits ≠ [] ∧ ∀ x ∈ (db'.clause j).lits, x ∈ (db.clause i).lits)
    (hnc : k = true → ∀ c ∈ new, Covered db' s c)
    (hdom : Dom db s → ∀ c ∈ new, ∀ x ∈ c, Okv s x.var) (hunl : k = true → Unl db → Unl db')
    (hnn : ∀ c ∈ new, c ≠ [] := by simp) : Tr k r db s db' s := by
  refine ⟨hi', ⟨new, by rw [hcert]; simp, hch, fun D hD hr => ?_, hnc⟩,
    fun hw => Sim.mk hw new dels hcert hch (fun D hD _ l hl => hD.1.root l hl.1 hl.2) hd (hlives hw), fun b hp hu i hne hpr => ?_, fun hk c hc => ?_, fun _ h => h, .refl _, fun hd => ?_, hunl, fun _ h => h⟩
  · refine mod_of (fun i hne => ?_) fun l hl => hD.1.root l hl.1 hl.2
    rcases hlive i hne with ⟨j, hj, e⟩ | ⟨c, hc, e⟩
    · exact (hD.1.resp hj).congr fun x => (e x).symm
    · exact (hr c hc).congr fun x => (e x).symm
  · rcases hback i hne hpr with ⟨l, hl, hr⟩ | ⟨j, h1, h2, h3⟩
    · exact ⟨l, hl, hu l hr⟩
    · obtain ⟨x, hx, hs⟩ := hp j h1 h2; exact ⟨x, h3 x hx, hs⟩
  · rcases hc with ⟨l, hl, hr⟩ | ⟨i, hne, hs⟩ | ht
    · exact .inl ⟨l, hl, hr⟩
    · rcases hcov hk i hne with ⟨l, hl, hr⟩ | ⟨j, h1, h3⟩
      · exact .inl ⟨l, hs l hl, hr⟩
      · exact .inr (.inl ⟨j, h1, fun x hx => hs x (h3 x hx)⟩)
    · exact .inr (.inr ht)
  · refine ⟨fun i l hl => ?_, hd.as, hd.hp, fun c hc => ?_, hd.lv⟩
    rotate_left
    · rw [hcert] at hc
      simp only [adds_append, adds_map, adds_map_del, List.append_nil, List.mem_append] at hc
      exact hc.elim (hd.ct c) fun hc => ⟨hnn c hc, fun l hl => ⟨(hdom hd c hc l hl).1, (hdom hd c hc l hl).2.1⟩⟩
    rcases hlive i (List.ne_nil_of_mem hl) with ⟨j, hj, e⟩ | ⟨c, hc, e⟩
    · exact hd.cl j l ((e l).1 hl)
    · exact hdom hd c hc l ((e l).1 hl)

theorem removeClause_linked {db db' : Cdb} {cid : Nat} (h : db.WF) (e : db.removeClause cid = some db') : Unl db → Unl db' := by
  obtain ⟨-, -, hc, -⟩ := Cdb.removeClause_spec h e
  intro hu i hi
  rw [hc] at hi ⊢
  simp only [upd_apply] at hi ⊢
  split
  · rename_i e; rw [if_pos e] at hi; simp at hi
  · rename_i e; rw [if_neg e] at hi; exact hu i hi

/-- Deleting a clause that is satisfied at the root level or contains another clause. -/
theorem Tr.remove {k r : Bool} {db : Cdb} {s : Stk} {db' : Cdb} {cid : Nat} (hi : RInv db s) (hl : s.lim = []) (e : db.removeClause cid = some db')
    (hback : Prim (db.clause cid) → (∃ l ∈ (db.clause cid).lits, Root s l) ∨
      ∃ j, j ≠ cid ∧ (db.clause j).lits ≠ [] ∧ Prim (db.clause j) ∧ ∀ x ∈ (db.clause j).lits, x ∈ (db.clause cid).lits)
    (hcov : k = true → (∃ l ∈ (db.clause cid).lits, Root s l) ∨
      ∃ j, j ≠ cid ∧ (db.clause j).lits ≠ [] ∧ ∀ x ∈ (db.clause j).lits, x ∈ (db.clause cid).lits) : Tr k r db s db' s := by
  obtain ⟨w, hne, hc, -, hcert⟩ := Cdb.removeClause_spec hi.wf e
  have hk : ∀ i, i ≠ cid → db'.clause i = db.clause i := fun i hi => by rw [hc, upd_of_ne _ _ hi]
  have hcid : (db'.clause cid).lits = [] := by rw [hc]; simp
  refine Tr.ofDb ⟨w, hi.inv.root_db hl⟩ [] [(db.clause cid).lits] (by rw [hcert]; simp) (by simpa using hne)
    (fun hw => lives_del hw w hk hne hcid) .nil ?_ ?_ ?_ (by simp) (by simp) (fun _ => removeClause_linked hi.wf e)
  · intro i hn
    have : i ≠ cid := by rintro rfl; exact hn hcid
    rw [hk i this] at hn ⊢
    exact .inl ⟨i, hn, fun _ => .rfl⟩
  · intro i hne hp
    by_cases e : i = cid
    · subst e
      rcases hback hp with h | ⟨j, h1, h2, h3, h4⟩
      · exact .inl h
      · right; refine ⟨j, ?_⟩; rw [hk j h1]; exact ⟨h2, h3, h4⟩
    · right; refine ⟨i, ?_⟩; rw [hk i e]; exact ⟨hne, hp, fun _ h => h⟩
  · intro hkk i hne
    by_cases e : i = cid
    · subst e
      rcases hcov hkk with h | ⟨j, h1, h2, h4⟩
      · exact .inl h
      · right; refine ⟨j, ?_⟩; rw [hk j h1]; exact ⟨h2, h4⟩
    · right; refine ⟨i, ?_⟩; rw [hk i e]; exact ⟨hne, fun _ h => h⟩

theorem Root.not_neg {s : Stk} {l : Lit} (h : Root s l) : ¬ Root s l.neg := fun h2 => tr_not_neg h.1 h2.1

/-- The log of a unit clause and its assignment at the root level. -/
theorem rg_unit {k r : Bool} {db : Cdb} {s : Stk} (hi : RInv db s) (hl : s.lim = []) {l : Lit}
    (hrup : ∀ D, MC db s D → D l.neg → False) (hok : Dom db s → Okv s l.var) :
    RG k r db s id (fun y => y.2.lim = [] ∧ y.1 = db.log (.add [l]) ∧ Root y.2 l) (s.assignRootRes (db.log (.add [l])) l) := by
  have hw : (db.log (.add [l])).WF := Cdb.wf_lits hi.wf (fun _ => ⟨rfl, rfl⟩) rfl rfl rfl rfl rfl
  have hc0 : s.cancelUntil noLow 0 = s := cancelUntil_noop (by unfold Stk.dl; rw [hl]; simp)
  obtain ⟨i1, i2, i3⟩ := hi.inv.assignRoot noLow l
  obtain ⟨a1, a2, a3, a4, a5, a6⟩ := assignRoot_saved (s := s) (low := noLow) (l := l)
  rw [hc0] at i3 a1 a2
  have hheap : ∀ v ∈ s.heap, v ≠ l.var → v ∈ (s.assignRoot noLow l).1.heap := by
    intro v hv hne
    unfold Stk.assignRoot; rw [hc0]; simp only []; split
    · simp only [makeAsserted, List.mem_filter]; exact ⟨hv, by simpa using hne⟩
    · exact hv
  have hheap2 : s.assign l.var ≠ none → (s.assignRoot noLow l).1.heap = s.heap := by
    intro hne
    unfold Stk.assignRoot; rw [hc0]; simp only []
    cases h : s.assign l.var with
    | none => exact absurd h hne
    | some x => rfl
  have hheap3 := assignRoot_heap (s := s) (low := noLow) (l := l)
  rw [hc0] at hheap3
  have hlev := assignRoot_level (s := s) (low := noLow) (l := l)
  unfold Stk.assignRootRes
  generalize hg : s.assignRoot noLow l = g at *
  obtain ⟨s1, b⟩ := g
  simp only [] at i1 i2 i3 a1 a2 a3 a4 a5 a6 hheap hheap2 hheap3 hlev
  have hroot1 : ∀ m, s1.tr m → s1.level m.var = 0 := fun m hm => i1.level_root i2 (tr_assigned hm)
  have hroot0 : ∀ m, s.tr m → s.level m.var = 0 := fun m hm => hi.inv.level_root hl (tr_assigned hm)
  have mk : (∀ m, s.tr m → s1.tr m) → s1.tr l → (∀ m, s1.tr m → s.tr m ∨ m = l) → SP s s1 →
      Tr k r db s (db.log (.add [l])) s1 := by
    intro m1 m2 m3 sp
    have hch : Chain (MC db s) [[l]] := .one fun D hD h => hrup D hD (h l (by simp))
    have hlr : ∀ D, MC db s D → (∀ c ∈ [[l]], Resp D c) → ∀ m, Root s1 m → D m := by
      intro D hD hr m hm
      rcases m3 m hm.1 with h | rfl
      · exact hD.1.root m h (hroot0 m h)
      · exact (hr [m] (by simp)).1 m (by simp) (by simp)
    refine ⟨⟨hw, i1.root_db i2⟩, ⟨[[l]], by simp, hch, fun D hD hr => mod_of (fun i hne => hD.1.resp hne) (hlr D hD hr), ?_⟩,
      fun hw0 => Sim.mk hw0 [[l]] [] (by simp [Cdb.log]) hch hlr (by simp) ?_, ?_, ?_, ?_, sp, ?_, fun _ h => h, ?_⟩
    · intro _ c hc; simp at hc; subst hc; exact .inl ⟨l, by simp, m2, hroot1 l m2⟩
    · rw [lives_perm hw0 hw fun _ => .refl _]; simp
    · intro b hp hu i hne hpr; exact hp i hne hpr
    · exact fun _ c hc => covered_same (db' := db.log (.add [l])) (fun _ _ => .rfl) (fun m hm => ⟨m1 m hm.1, hroot1 m (m1 m hm.1)⟩) hc
    · exact fun m hm => ⟨m1 m hm.1, hroot1 m (m1 m hm.1)⟩
    · intro hd
      refine ⟨fun i x hx => sp.okv.2 (hd.cl i x hx), fun v hv => sp.okv.2 ?_, fun v hv => by
        rw [a1] at hv; rw [sp.numVars]; exact hd.hp v (hv.imp (hheap3 v) id), fun c hc => ?_, fun v => by rw [sp.numVars]; exact (hlev v).trans (hd.lv v)⟩
      rotate_left
      · rw [adds_log_add, List.mem_append] at hc
        rw [sp.numVars]
        rcases hc with hc | hc
        · exact hd.ct c hc
        · simp at hc; subst hc
          exact ⟨by simp, fun x hx => by simp at hx; subst hx; exact ⟨(hok hd).1, (hok hd).2.1⟩⟩
      obtain ⟨x, hx⟩ := tr_of_assign hv
      rcases m3 _ hx with h | h
      · have := tr_assigned h; exact hd.as v this
      · have := hok hd; rw [← h] at this; exact this
    · intro _ hs; rw [a1]; exact hs
  rcases i3 with ⟨hn, hb, ea, et⟩ | ⟨ht, hb, ea, et⟩ | ⟨ht, hb, ea, et⟩
  · subst hb
    have hsl : s1.tr l := by unfold tr; rw [ea]; simp
    refine ⟨mk ?_ hsl ?_ (SP.push hn ea et a3 a4 a5 a6 a1 hheap), i2, rfl, hsl, hroot1 l hsl⟩
    · exact fun m hm => tr_upd hn ea hm
    · intro m hm
      unfold tr at hm; rw [ea] at hm
      by_cases e : m.var = l.var
      · right; rw [e, upd_same] at hm; cases m; cases l; simp at hm e; simp [e, hm]
      · left; rw [upd_of_ne _ _ e] at hm; exact hm
  · subst hb
    have heq : ∀ m, s1.tr m ↔ s.tr m := fun m => by unfold tr; rw [ea]
    refine ⟨mk (fun m hm => (heq m).2 hm) ((heq l).2 ht) (fun m hm => .inl ((heq m).1 hm)) ?_, i2, rfl, (heq l).2 ht, hroot1 l ((heq l).2 ht)⟩
    refine SP.of_eq ea et a3 a4 a5 a6 fun v _ h => ?_
    rw [hheap2 (tr_assigned ht), a1]; exact h
  · subst hb
    refine .mk [[l]] [] (by simp [Cdb.log]) (.one fun D hD h => hrup D hD (h l (by simp))) (fun D hD _ => ?_) (by simp) (fun _ => Multiset.zero_le _) fun hd c hc => by
      simp at hc; subst hc
      exact ⟨by simp, fun x hx => by simp at hx; subst hx; exact ⟨(hok hd).1, (hok hd).2.1⟩⟩
    exact hrup D hD (hD.1.root _ ht (hroot0 _ ht))

/-! ## propagation at the root level -/

theorem conf_root {db : Cdb} {s : Stk} (hi : Inv db s) (hl : s.lim = []) {l : Lit} {r : Reason} (h : ConfOK db s l r) {D : Lit → Prop}
    (hD : Mod db s D) : False := by
  have ag : ∀ v, Agree s D v := fun v x hx => hD.root ⟨v, x⟩ hx (hi.level_root hl (by rw [hx]; simp))
  exact conf_false hD h (ag _) fun q _ => ag _

theorem rg_propagate {k r : Bool} {db : Cdb} {s : Stk} (hi : RInv db s) (hl : s.lim = []) :
    RG k r db s id (fun y => y.2.lim = []) (propagateSandbox db s).toRes := by
  have hg := propagateSandbox_good hi
  cases h : propagateSandbox db s with
  | ok db' s' =>
    rw [h] at hg
    exact ⟨hg.trn hi, (hg.allR hi).2.2.lim.trans hl⟩
  | conflict db' s' l rs =>
    rw [h] at hg
    obtain ⟨st, hc⟩ := hg
    have hx := st.allR hi
    refine Refuted.after (k := k) (r := r) (st.trn hi) (.now rfl fun D hD => ?_)
    exact conf_root hx.1.inv (hx.2.2.lim.trans hl) hc hD.1
  | _ => trivial

theorem rg_propRemains {k r : Bool} {x : DS} (hi : RInv x.1 x.2) (hl : x.2.lim = []) :
    RG k r x.1 x.2 id (fun y => y.2.lim = []) (propRemains x) := by
  unfold propRemains
  split
  · exact rg_propagate hi hl
  · exact ⟨.refl hi, hl⟩

/-! ## simplification by root-level facts -/

theorem simp_linked {db db' : Cdb} {asg : Nat → Option Bool} {elim : Nat → Bool} {cid : Nat} {rf : RefClause} (h : db.WF)
    (e : db.transformBySimplification asg elim cid = some (db', rf)) (hk : ∀ i, i ≠ cid → db'.clause i = db.clause i) :
    (db'.clause cid).lits ≠ [] → (db'.clause cid).occurLinked = (db.clause cid).occurLinked := by
  have rm : ∀ d, db.removeClause cid = some d → (d.clause cid).occurLinked = (db.clause cid).occurLinked := by
    intro d hd
    obtain ⟨-, -, hc, -⟩ := Cdb.removeClause_spec h hd
    rw [hc]; simp
  intro _
  unfold Cdb.transformBySimplification at e
  split at e
  · cases hr : db.removeClause cid with
    | none => rw [hr] at e; simp at e
    | some d => rw [hr] at e; simp at e; rw [← e.1]; exact rm d hr
  split at e
  · simp at e; rw [← e.1]
  split at e
  · simp at e; rw [← e.1]
  · simp at e; rw [← e.1]
  · split at e
    · cases hr : db.removeClause cid with
      | none => rw [hr] at e; simp at e
      | some d => rw [hr] at e; simp at e; rw [← e.1]; exact rm d hr
    · simp at e; rw [← e.1]; simp [Cdb.log, Cdb.setC, upd]
  · simp at e; rw [← e.1]; simp [Cdb.log, Cdb.setC, upd]
  · simp at e

/-- A clause without true literals: dropping its false literals keeps its meaning. -/
theorem drop_false_rup {db : Cdb} {s : Stk} {D : Lit → Prop} (hD : MC db s D) {i : Nat} (hne : (db.clause i).lits ≠ []) {c : Cls}
    (hc : ∀ x ∈ (db.clause i).lits, x ∈ c ∨ Root s x.neg) (hn : ∀ x ∈ c, D x.neg) : False := by
  obtain ⟨y, hy, hyn⟩ := hD.1.conf i hne
  rcases hc y hy with h | h
  · exact hyn (hn y h)
  · exact hyn (hD.1.root _ h.1 h.2)

theorem rg_simpOne {r : Bool} {x : DS} {cid : Nat} (hi : RInv x.1 x.2) (hl : x.2.lim = []) (hd : Dom x.1 x.2) :
    RG true r x.1 x.2 id (fun y => y.2.lim = []) (simpOne x cid) := by
  obtain ⟨db, s⟩ := x
  unfold simpOne
  simp only [] at hi hl hd ⊢
  split
  · exact ⟨.refl hi, hl⟩
  rename_i hdead
  have hne : (db.clause cid).lits ≠ [] := by simpa [Cl.dead] using hdead
  have h2 := hi.wf.len2 cid hne
  obtain ⟨db', rf, e, w, out, hk, -⟩ := Cdb.transformBySimplification_spec (asg := s.assign) (elim := s.elim) hi.wf hne
  have hlv : ∀ m, s.tr m → Root s m := fun m hm => ⟨hm, hi.inv.level_root hl (tr_assigned hm)⟩
  have hlink := simp_linked hi.wf e hk
  have hunl : Unl db → Unl db' := by
    intro hu i hne'
    by_cases ei : i = cid
    · subst ei; rw [hlink hne']; exact hu i hne
    · rw [hk i ei] at hne' ⊢; exact hu i hne'
  rw [e]
  -- the literals that are dropped are false
  have hdrop : (∀ l ∈ (db.clause cid).lits, ¬ s.tr l) →
      ∀ x ∈ (db.clause cid).lits, x ∈ (db.clause cid).lits.filter (fun l => litVal s.assign l == none && !s.elim l.var) ∨ Root s x.neg := by
    intro ht x hx
    rcases tr_cases s x with h | h | h
    · exact absurd h (ht x hx)
    · exact .inr (hlv _ h)
    · left; rw [List.mem_filter]; refine ⟨hx, ?_⟩
      simp [litVal_none.2 h, (hd.cl cid x hx).2.2]
  have hnt : ∀ rf', rf' ≠ RefClause.dead → rf = rf' → ∀ l ∈ (db.clause cid).lits, ¬ s.tr l := by
    intro rf' hrf' hre l hm ht
    unfold Cdb.transformBySimplification at e
    rw [if_pos (by rw [List.any_eq_true]; exact ⟨l, hm, by simp [litVal_true.2 ht]⟩)] at e
    cases hr : db.removeClause cid with
    | none => rw [hr] at e; simp at e
    | some d => rw [hr] at e; simp at e; exact hrf' (hre.symm.trans e.2.symm)
  cases out with
  | dead h h' hc =>
    refine ⟨?_, hl⟩
    obtain ⟨l, hm, ht⟩ := h
    refine Tr.ofDb ⟨w, hi.inv.root_db hl⟩ [] [(db.clause cid).lits] (by show db'.cert = _; rw [hc]; simp) (by simpa using hne)
      (fun hw => lives_del hw w hk hne h') .nil ?_ ?_ ?_ (by simp) (by simp) (fun _ => hunl)
    · intro i hn
      have : i ≠ cid := by rintro rfl; exact hn h'
      simp only [id] at hn ⊢
      rw [hk i this] at hn ⊢; exact .inl ⟨i, hn, fun _ => .rfl⟩
    · intro i hn hp
      by_cases e : i = cid
      · subst e; exact .inl ⟨l, hm, hlv l (litVal_true.1 ht)⟩
      · right; refine ⟨i, ?_⟩; simp only [id]; rw [hk i e]; exact ⟨hn, hp, fun _ h => h⟩
    · intro _ i hn
      by_cases e : i = cid
      · subst e; exact .inl ⟨l, hm, hlv l (litVal_true.1 ht)⟩
      · right; refine ⟨i, ?_⟩; simp only [id]; rw [hk i e]; exact ⟨hn, fun _ h => h⟩
  | same h' => subst h'; exact ⟨.refl hi, hl⟩
  | empty h h' =>
    subst h'
    refine .now rfl fun D hD => ?_
    exact drop_false_rup hD hne (hdrop (hnt _ (by simp) rfl)) (by rw [h]; simp)
  | unit l h h' =>
    subst h'
    have hml : l ∈ (db'.clause cid).lits := by
      have : l ∈ (db'.clause cid).lits.filter (fun l => litVal s.assign l == none && !s.elim l.var) := by rw [h]; simp
      exact (List.mem_filter.1 this).1
    have hu := rg_unit (k := true) (r := r) hi hl (l := l) (fun D hD hn => drop_false_rup hD hne (hdrop (hnt _ (by simp) rfl))
      (by rw [h]; simpa using hn)) (fun hd => hd.cl cid l hml)
    refine hu.bind fun y ty hy => ?_
    obtain ⟨y1, y2, y3⟩ := hy
    unfold Cdb.removeRes
    cases hr : y.1.removeClause cid with
    | none => trivial
    | some d =>
      refine ⟨Tr.remove (k := true) ty.rinv y1 hr (fun _ => ?_) (fun _ => ?_), y1⟩
      · left; simp only [id]; rw [y2]; exact ⟨l, hml, y3⟩
      · left; simp only [id]; rw [y2]; exact ⟨l, hml, y3⟩
  | registered bid a b h hb hr h' hc =>
    have hsub : ∀ x ∈ (db.clause bid).lits, x ∈ (db.clause cid).lits := by
      intro x hx
      have : x ∈ (db.clause cid).lits.filter (fun l => litVal s.assign l == none && !s.elim l.var) := by
        rw [h]; rcases hr with e | e <;> rw [e] at hx <;> simp at hx ⊢ <;> tauto
      exact (List.mem_filter.1 this).1
    have hbl : (db.clause bid).lits.length = 2 := by rcases hr with e | e <;> rw [e] <;> rfl
    have hbn : (db.clause bid).lits ≠ [] := by rcases hr with e | e <;> rw [e] <;> simp
    refine ⟨?_, hl⟩
    refine Tr.ofDb ⟨w, hi.inv.root_db hl⟩ [] [(db.clause cid).lits] (by show db'.cert = _; rw [hc]; simp) (by simpa using hne)
      (fun hw => lives_del hw w hk hne h') .nil ?_ ?_ ?_ (by simp) (by simp) (fun _ => hunl)
    · intro i hn
      have : i ≠ cid := by rintro rfl; exact hn h'
      simp only [id] at hn ⊢
      rw [hk i this] at hn ⊢; exact .inl ⟨i, hn, fun _ => .rfl⟩
    · intro i hn hp
      by_cases e : i = cid
      · subst e; right; refine ⟨bid, ?_⟩; simp only [id]; rw [hk bid hb]; exact ⟨hbn, .inr hbl, hsub⟩
      · right; refine ⟨i, ?_⟩; simp only [id]; rw [hk i e]; exact ⟨hn, hp, fun _ h => h⟩
    · intro _ i hn
      by_cases e : i = cid
      · subst e; right; refine ⟨bid, ?_⟩; simp only [id]; rw [hk bid hb]; exact ⟨hbn, hsub⟩
      · right; refine ⟨i, ?_⟩; simp only [id]; rw [hk i e]; exact ⟨hn, fun _ h => h⟩
  | shorter h hh hlt hlr hc =>
    have hne' : (db'.clause cid).lits ≠ [] := by rw [hh]; intro e; rw [e] at h; simp at h
    have hsub : ∀ x ∈ (db'.clause cid).lits, x ∈ (db.clause cid).lits := by
      intro x hx; rw [hh] at hx; exact (List.mem_filter.1 hx).1
    refine ⟨?_, hl⟩
    refine Tr.ofDb ⟨w, hi.inv.root_db hl⟩ [_] [(db.clause cid).lits] (by show db'.cert = _; rw [hc]; simp) (by simpa using hne)
      (fun hw => lives_sub hw w hk hne (by rw [hh])) (.one fun D hD hn => drop_false_rup hD hne (hdrop (hnt (.clause cid) (by simp) rfl)) hn)
      ?_ ?_ ?_ ?_ ?_ (fun _ => hunl) fun c hcm => by rw [List.mem_singleton.1 hcm, ← hh]; exact hne'
    · intro i hn
      by_cases e : i = cid
      · subst e; right; exact ⟨_, List.mem_singleton_self _, fun x => by simp only [id]; rw [hh]⟩
      · simp only [id] at hn ⊢
        rw [hk i e] at hn ⊢; exact .inl ⟨i, hn, fun _ => .rfl⟩
    · intro i hn hp
      by_cases e : i = cid
      · subst e; right; refine ⟨i, hne', ?_, hsub⟩
        rcases hp with hp | hp
        · left; simp only [id]; rw [hlr, hp]; rfl
        · omega
      · right; refine ⟨i, ?_⟩; simp only [id]; rw [hk i e]; exact ⟨hn, hp, fun _ h => h⟩
    · intro _ i hn
      by_cases e : i = cid
      · subst e; right; exact ⟨i, hne', hsub⟩
      · right; refine ⟨i, ?_⟩; simp only [id]; rw [hk i e]; exact ⟨hn, fun _ h => h⟩
    · intro _ c hcm; simp only [List.mem_singleton] at hcm; subst hcm
      exact .inr (.inl ⟨cid, hne', fun x hx => by simp only [id] at hx; rw [hh] at hx; exact hx⟩)
    · intro hd c hcm x hx; simp only [List.mem_singleton] at hcm; subst hcm
      exact hd.cl cid x (List.mem_filter.1 hx).1

theorem rg_simpPass {r : Bool} : ∀ {cids : List Nat} {x : DS}, RInv x.1 x.2 → x.2.lim = [] → Dom x.1 x.2 →
    RG true r x.1 x.2 id (fun y => y.2.lim = []) (simpPass cids x)
  | [], x, hi, hl, _ => ⟨.refl hi, hl⟩
  | cid :: cids, x, hi, hl, hd => by
    unfold simpPass
    exact (rg_simpOne hi hl hd).bind fun y ty hy => rg_simpPass ty.rinv hy (ty.dom hd)

theorem rg_rootLoop {r : Bool} : ∀ {n np : Nat} {x : DS}, RInv x.1 x.2 → x.2.lim = [] → Dom x.1 x.2 →
    RG true r x.1 x.2 id (fun y => y.2.lim = []) (rootLoop n np x)
  | 0, _, _, _, _, _ => trivial
  | n + 1, np, x, hi, hl, hd => by
    unfold rootLoop
    split
    · exact (rg_simpPass hi hl hd).bind fun y ty hy => rg_rootLoop ty.rinv hy (ty.dom hd)
    · exact ⟨.refl hi, hl⟩

theorem rg_clearLoop {r : Bool} : ∀ {n : Nat} {x : DS}, RInv x.1 x.2 → x.2.lim = [] → Dom x.1 x.2 →
    RG true r x.1 x.2 id (fun y => y.2.lim = []) (clearLoop n x)
  | 0, _, _, _, _ => trivial
  | n + 1, x, hi, hl, hd => by
    unfold clearLoop
    refine (rg_propRemains hi hl).bind fun y ty hy => ?_
    refine (rg_rootLoop ty.rinv hy (ty.dom hd)).bind fun z tz hz => ?_
    split
    · exact (rg_propagate tz.rinv hz).bind fun u tu hu => rg_clearLoop tu.rinv hu (tu.dom (tz.dom (ty.dom hd)))
    · exact ⟨.refl tz.rinv, hz⟩

theorem SP.archive {db : Cdb} {s : Stk} (hi : Inv db s) : SP s s.archive := by
  refine ⟨rfl, rfl, ?_, fun h v hv ha => h v hv ha⟩
  rintro ⟨A, E, a1, a2, a3, e1, e2, e3⟩
  refine ⟨A ++ s.trail.map Lit.var, E, ?_, by simp [Stk.archive, a2], fun v => ?_, e1, e2, e3⟩
  · rw [List.nodup_append]
    refine ⟨a1, hi.nd, ?_⟩
    rintro a ha b hb rfl; exact ((a3 a).1 ha).2 hb
  · rw [List.mem_append, a3]
    refine ⟨fun hv => ⟨?_, by simp [Stk.archive]⟩, fun hv => ?_⟩
    · rcases hv with hv | hv
      · exact hv.1
      · obtain ⟨l, hl, rfl⟩ := List.mem_map.1 hv; exact tr_assigned (hi.tv l hl)
    · by_cases h : v ∈ s.trail.map Lit.var
      · exact .inr h
      · exact .inl ⟨hv.1, h⟩

theorem Tr.archive {k r : Bool} {db : Cdb} {s : Stk} (hi : RInv db s) (hl : s.lim = []) : Tr k r db s db s.archive :=
  Tr.stk ⟨hi.wf, hi.inv.archive hl rfl rfl rfl rfl rfl rfl⟩ (.refl _) (fun _ h => h) (fun _ hD _ hl => hD.1.root _ hl.1 hl.2)
    (SP.archive hi.inv) (fun hd v hv => hd.as v hv) (fun _ h => h) (fun v hv => hv.imp id .inl)

theorem rg_clearAsserted {r : Bool} {x : DS} (hi : RInv x.1 x.2) (hl : x.2.lim = []) (hd : Dom x.1 x.2) :
    RG true r x.1 x.2 id (fun y => y.2.lim = []) (clearAsserted x) := by
  unfold clearAsserted
  exact (rg_clearLoop hi hl hd).bind fun y ty hy => ⟨Tr.archive ty.rinv hy, hy⟩

end Splr
