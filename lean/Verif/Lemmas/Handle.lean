import Verif.Lemmas.Learn
/-! `handle_conflict` preserves the invariants. -/
namespace Splr
open Stk

/-! ## levels and cuts -/

/-- The trail from the start of level `lv + 1` on has higher levels, the part before has levels up to `lv`. -/
theorem Inv.level_drop {db : Cdb} {s : Stk} (h : Inv db s) {lv k : Nat} (hk : s.lim[lv]? = some k) {l : Lit} (hl : l ∈ s.trail.drop k) :
    lv < s.level l.var := by
  obtain ⟨i, hi, e⟩ := List.mem_iff_getElem.1 hl
  rw [List.length_drop] at hi
  rw [List.getElem_drop] at e
  have hlt : k + i < s.trail.length := by omega
  have hsplit : s.trail = s.trail.take (k + i) ++ l :: s.trail.drop (k + i + 1) := by
    rw [← e]; simp
  rw [h.lev _ _ _ hsplit, List.length_take]
  have hmin : min (k + i) s.trail.length = k + i := by omega
  rw [hmin, ← List.take_append_drop (lv + 1) s.lim, List.countP_append]
  have hlen : lv < s.lim.length := (List.getElem?_eq_some_iff.1 hk).1
  have : (s.lim.take (lv + 1)).countP (· ≤ k + i) = lv + 1 := by
    have hl1 : (s.lim.take (lv + 1)).length = lv + 1 := by rw [List.length_take]; omega
    conv_rhs => rw [← hl1]
    rw [List.countP_eq_length]
    intro x hx
    obtain ⟨j, hj, ej⟩ := List.mem_iff_getElem.1 hx
    rw [List.getElem_take] at ej
    rw [List.length_take] at hj
    have hkk : s.lim[lv] = k := (List.getElem?_eq_some_iff.1 hk).2
    rcases Nat.lt_or_ge j lv with hjl | hjl
    · have := List.pairwise_iff_getElem.1 h.limInc j lv (by omega) hlen hjl
      simp; omega
    · have : j = lv := by omega
      subst this; simp; omega
  omega

theorem Inv.level_take {db : Cdb} {s : Stk} (h : Inv db s) {lv k : Nat} (hk : s.lim[lv]? = some k) {l : Lit} (hl : l ∈ s.trail.take k) :
    s.level l.var ≤ lv := by
  obtain ⟨i, hi, e⟩ := List.mem_iff_getElem.1 hl
  rw [List.length_take] at hi
  rw [List.getElem_take] at e
  have hlt : i < s.trail.length := by omega
  have hsplit : s.trail = s.trail.take i ++ l :: s.trail.drop (i + 1) := by
    rw [← e]; simp
  rw [h.lev _ _ _ hsplit, List.length_take]
  have hmin : min i s.trail.length = i := by omega
  rw [hmin, ← countP_take h.limInc hk (n := i) (by omega)]
  have := List.countP_le_length (p := fun x => decide (x ≤ i)) (l := s.lim.take lv)
  rw [List.length_take] at this; omega

/-- After a cut to level `lv`, exactly the variables of levels up to `lv` are assigned, with unchanged values. -/
theorem Cut.assign_iff {db : Cdb} {s s' : Stk} (h : Inv db s) {lv k : Nat} (c : Cut s s' lv k) (v : Nat) :
    s'.assign v = if s.level v ≤ lv then s.assign v else none := by
  rw [c.as]; simp only []
  by_cases ha : s.assign v = none
  · rw [ha]; simp
  by_cases hv : v ∈ s.trail.map Lit.var
  · obtain ⟨l, hl, rfl⟩ := List.mem_map.1 hv
    rw [← List.take_append_drop k s.trail, List.mem_append] at hl
    rcases hl with hl | hl
    · rw [if_neg (h.not_dropped hl), if_pos (Inv.level_take h c.hk hl)]
    · rw [if_pos (List.mem_map_of_mem hl), if_neg (by have := Inv.level_drop h c.hk hl; omega)]
  · rw [if_neg (fun hm => hv ((List.drop_sublist k s.trail).map Lit.var |>.subset hm)), if_pos (by rw [h.arch v ha hv]; omega)]

theorem cancelUntil_assign {db : Cdb} {s : Stk} (h : Inv db s) {low : Nat → Bool} {lv : Nat} (v : Nat) :
    (s.cancelUntil low lv).assign v = if s.level v ≤ lv then s.assign v else none := by
  by_cases hl : s.dl ≤ lv
  · rw [cancelUntil_noop hl]
    by_cases ha : s.assign v = none
    · rw [ha]; simp
    · rw [if_pos (by have := Inv.level_le h ha; omega)]
  · exact Cut.assign_iff h (cancelUntil_cut (by omega)).1 v

theorem cancelUntil_level {s : Stk} {low : Nat → Bool} {lv : Nat} : (s.cancelUntil low lv).level = s.level := by
  by_cases hl : s.dl ≤ lv
  · rw [cancelUntil_noop hl]
  · exact (cancelUntil_cut (by omega)).1.le

theorem PInv.cancelUntil {db : Cdb} {s : Stk} (h : PInv db s) (low : Nat → Bool) (lv : Nat) : PInv db (s.cancelUntil low lv) :=
  ⟨h.wf, h.inv.cancelUntil low lv, h.saved.cancelUntil h.inv low lv⟩

theorem PInv.clearSaved {db : Cdb} {s : Stk} (h : PInv db s) : PInv db s.clearSaved :=
  ⟨h.wf, h.inv.clearSaved, savedOK_nil rfl⟩

theorem PInv.grow {db db' : Cdb} {s : Stk} (h : PInv db s) (hw : db'.WF)
    (hm : ∀ i, (db.clause i).lits ≠ [] → (db'.clause i).lits = (db.clause i).lits) : PInv db' s :=
  ⟨hw, h.inv.grow hm, h.saved.grow rfl rfl rfl hm⟩

theorem PInv.assignImpl {db : Cdb} {s : Stk} (h : PInv db s) {l : Lit} (hn : s.assign l.var = none) {r : Reason} (hr : Implied db s l r) :
    PInv db (s.assignImpl l r s.dl) := by
  obtain ⟨f1, -, -, -, -, -, f7, f8, -⟩ := assignImpl_fields s l r s.dl
  exact ⟨h.wf, h.inv.assignImpl hn hr, h.saved.push hn f1 f7 f8⟩

theorem PInv.assignDecision {db : Cdb} {s : Stk} (h : PInv db s) {l : Lit} (hn : s.assign l.var = none) :
    PInv db (s.assignDecision l) :=
  ⟨h.wf, h.inv.assignDecision hn, h.saved.push hn rfl rfl rfl⟩

theorem assignRoot_level {s : Stk} {low : Nat → Bool} {l : Lit} (v : Nat) : (s.assignRoot low l).1.level v ≤ s.level v := by
  have hc : (s.cancelUntil low 0).level = s.level := by
    obtain ⟨-, f2, -⟩ := saveTrail_fields s low 0
    unfold Stk.cancelUntil; simp only []; split
    · rfl
    · exact f2
  have h0 : upd s.level l.var 0 v ≤ s.level v := by simp only [upd_apply]; split <;> omega
  unfold Stk.assignRoot; simp only []
  split
  · show upd (s.cancelUntil low 0).level l.var 0 v ≤ _
    rw [hc]; exact h0
  · show upd (s.cancelUntil low 0).level l.var 0 v ≤ _
    rw [hc]; exact h0

theorem assignRoot_saved {s : Stk} {low : Nat → Bool} {l : Lit} : (s.assignRoot low l).1.saved = (s.cancelUntil low 0).saved ∧
    (s.assignRoot low l).1.reasonSaved = (s.cancelUntil low 0).reasonSaved ∧ (s.assignRoot low l).1.elim = s.elim ∧
    (s.assignRoot low l).1.numVars = s.numVars ∧ (s.assignRoot low l).1.numAsserted = s.numAsserted ∧
    (s.assignRoot low l).1.numElim = s.numElim := by
  have hc : (s.cancelUntil low 0).elim = s.elim ∧ (s.cancelUntil low 0).numVars = s.numVars ∧
      (s.cancelUntil low 0).numAsserted = s.numAsserted ∧ (s.cancelUntil low 0).numElim = s.numElim := by
    obtain ⟨-, -, -, -, -, -, f7, f8, f9, f10⟩ := saveTrail_fields s low 0
    unfold Stk.cancelUntil; simp only []; split
    · exact ⟨rfl, rfl, rfl, rfl⟩
    · exact ⟨f7, f8, f9, f10⟩
  unfold Stk.assignRoot; simp only []
  split
  · exact ⟨rfl, rfl, hc.1, hc.2.1, hc.2.2.1, hc.2.2.2⟩
  · exact ⟨rfl, rfl, hc.1, hc.2.1, hc.2.2.1, hc.2.2.2⟩

theorem assignRoot_heap {s : Stk} {low : Nat → Bool} {l : Lit} : ∀ v ∈ (s.assignRoot low l).1.heap, v ∈ (s.cancelUntil low 0).heap := by
  intro v hv
  unfold Stk.assignRoot at hv; simp only [] at hv
  split at hv
  · simp only [makeAsserted, List.mem_filter] at hv; exact hv.1
  · exact hv

theorem PInv.assignRoot {db : Cdb} {s : Stk} (h : PInv db s) (low : Nat → Bool) (l : Lit) : PInv db (s.assignRoot low l).1 := by
  have hc := h.cancelUntil low 0
  obtain ⟨h1, h2, h3⟩ := h.inv.assignRoot low l
  obtain ⟨a1, a2, -⟩ := assignRoot_saved (s := s) (low := low) (l := l)
  refine ⟨h.wf, h1, ?_⟩
  rcases h3 with ⟨hn, -, e, -⟩ | ⟨-, -, e, -⟩ | ⟨-, -, e, -⟩
  · exact hc.saved.push hn e a1 a2
  · exact hc.saved.grow e a1 a2 (fun _ _ => rfl)
  · exact hc.saved.grow e a1 a2 (fun _ _ => rfl)

theorem rerankOne_lits (db : Cdb) (level : Nat → Nat) (rr : Option Nat) : ∀ i, ((db.rerankOne level rr).clause i).lits = (db.clause i).lits ∧
    ((db.rerankOne level rr).clause i).learnt = (db.clause i).learnt := by
  intro i
  cases rr with
  | none => exact ⟨rfl, rfl⟩
  | some cid =>
    unfold Cdb.rerankOne; simp only []
    split
    · exact ⟨rfl, rfl⟩
    · simp only [Cdb.setC, upd_apply]; split
      · rename_i e; subst e; exact ⟨rfl, rfl⟩
      · exact ⟨rfl, rfl⟩

theorem rerankOne_cert (db : Cdb) (level : Nat → Nat) (rr : Option Nat) : (db.rerankOne level rr).cert = db.cert := by
  cases rr with
  | none => rfl
  | some cid => unfold Cdb.rerankOne; simp only []; split <;> rfl

theorem wf_rerankOne {db : Cdb} (h : db.WF) (level : Nat → Nat) (rr : Option Nat) : (db.rerankOne level rr).WF := by
  cases rr with
  | none => exact h
  | some cid =>
    unfold Cdb.rerankOne; simp only []
    split
    · exact h
    · refine Cdb.wf_lits h (fun i => ?_) rfl rfl rfl rfl rfl
      simp only [Cdb.setC, upd_apply]; split
      · rename_i e; subst e; exact ⟨rfl, rfl⟩
      · exact ⟨rfl, rfl⟩

theorem Mod.congr {db db' : Cdb} {s s' : Stk} {D : Lit → Prop} (h : Mod db s D) (hl : ∀ i, (db'.clause i).lits = (db.clause i).lits)
    (hr : ∀ l, s'.tr l → s'.level l.var = 0 → D l) : Mod db' s' D :=
  ⟨fun i => by rw [hl i]; exact h.cl i, fun i => by rw [hl i]; exact h.conf i, hr⟩


/-- What the learning of a clause leaves unchanged. -/
structure Stk.Frame (s s' : Stk) : Prop where
  elim : s'.elim = s.elim
  numVars : s'.numVars = s.numVars
  numAsserted : s'.numAsserted = s.numAsserted
  numElim : s'.numElim = s.numElim
  assign : ∀ v, s'.assign v ≠ none → s.assign v ≠ none
  saved : ∀ l ∈ s'.saved, l ∈ s.saved ∨ l ∈ s.trail

theorem Stk.Frame.refl (s : Stk) : Stk.Frame s s := ⟨rfl, rfl, rfl, rfl, fun _ h => h, fun _ h => .inl h⟩

theorem Stk.Frame.trans {a b c : Stk} (h1 : Frame a b) (h2 : Frame b c) (ht : ∀ l ∈ b.trail, l ∈ a.saved ∨ l ∈ a.trail) : Frame a c :=
  ⟨h2.elim.trans h1.elim, h2.numVars.trans h1.numVars, h2.numAsserted.trans h1.numAsserted, h2.numElim.trans h1.numElim,
    fun v hv => h1.assign v (h2.assign v hv), fun l hl => (h2.saved l hl).elim (h1.saved l) (ht l)⟩

theorem cancelUntil_frame {db : Cdb} {s : Stk} (h : Inv db s) (low : Nat → Bool) (lv : Nat) : Stk.Frame s (s.cancelUntil low lv) := by
  by_cases hl : s.dl ≤ lv
  · rw [cancelUntil_noop hl]; exact .refl _
  · obtain ⟨-, -, -, -, -, -, f7, f8, f9, f10⟩ := saveTrail_fields s low lv
    have hs := (cancelUntil_saved (s := s) (low := low) (lv := lv) (by omega)).1
    refine ⟨?_, ?_, ?_, ?_, fun v hv => ?_, fun l hm => ?_⟩
    · simp only [Stk.cancelUntil, hl, if_false, unassignFrom]; exact f7
    · simp only [Stk.cancelUntil, hl, if_false, unassignFrom]; exact f8
    · simp only [Stk.cancelUntil, hl, if_false, unassignFrom]; exact f9
    · simp only [Stk.cancelUntil, hl, if_false, unassignFrom]; exact f10
    · rw [cancelUntil_assign h] at hv
      split at hv
      · exact hv
      · exact absurd rfl hv
    · rcases hs with e | e
      · rw [e] at hm; simp at hm
      · rw [e] at hm; exact .inr (List.mem_of_mem_drop (List.mem_of_mem_take hm))

theorem cancelUntil_trail_sub {s : Stk} {low : Nat → Bool} {lv : Nat} : ∀ l ∈ (s.cancelUntil low lv).trail, l ∈ s.trail := by
  by_cases hl : s.dl ≤ lv
  · rw [cancelUntil_noop hl]; exact fun _ h => h
  · rw [(cancelUntil_cut (by omega)).1.tr]; exact fun _ h => List.mem_of_mem_take h

/-- Root-level facts survive backtracking and none is added. -/
theorem cancelUntil_root {db : Cdb} {s : Stk} (h : Inv db s) {low : Nat → Bool} {lv : Nat} {l : Lit}
    (ht : (s.cancelUntil low lv).tr l) : s.tr l := by
  unfold tr at *; rw [cancelUntil_assign h] at ht
  split at ht
  · exact ht
  · simp at ht

/-- The result of learning the clause `v` from a conflict in the state `db`, `s`. -/
structure HOK (db : Cdb) (s : Stk) (v : Cls) (db' : Cdb) (s' : Stk) : Prop where
  inv : PInv db' s'
  clauses : ∀ i, (db'.clause i).lits = (db.clause i).lits ∧ (db'.clause i).learnt = (db.clause i).learnt ∨
    ((db.clause i).lits = [] ∧ (db'.clause i).lits = v ∧ ((db'.clause i).learnt = false → v.length = 2))
  cert : db'.cert = db.cert ++ [.add v] ∨ (db'.cert = db.cert ∧ ∃ i a b, v = [a, b] ∧ ((db.clause i).lits = [a, b] ∨ (db.clause i).lits = [b, a]))
  root : ∀ l, s'.tr l → s'.level l.var = 0 → (s.tr l ∧ s.level l.var = 0) ∨
    (∃ rest, v = l :: rest ∧ ∀ x ∈ rest, s.tr x.neg ∧ s.level x.var = 0)
  frame : Stk.Frame s s'
  saved : ∀ l ∈ s'.trail, l ∈ s.saved ∨ l ∈ s.trail ∨ ∃ rest, v = l :: rest

theorem learnClause_spec {db : Cdb} {s : Stk} (h : PInv db s) {low : Nat → Bool} {drift : Bool} {v : Cls} {lv : Nat}
    (hv : LearntOK db s v lv) (h2 : 2 ≤ v.length) :
    ∃ db' s', learnClause db s low drift v lv = .ok db' s' ∧ HOK db s v db' s' := by
  obtain ⟨l0, rest, rfl, t0, e0, hr, -, hm⟩ := hv.asserting
  cases rest with
  | nil => simp at h2
  | cons l1 tl =>
  have hlv1 := hm l1 tl rfl
  have hlt : lv < s.dl := by rw [← hlv1]; exact (hr l1 (by simp)).2.1
  -- adding the clause to the database
  have hnew : ∀ (s1 : Stk), PInv db s1 → ∃ db1 r, db.newClause s1.level (l0 :: l1 :: tl) true = some (db1, r) ∧ PInv db1 s1 ∧
      (∀ i, (db1.clause i).lits = (db.clause i).lits ∧ (db1.clause i).learnt = (db.clause i).learnt ∨
        ((db.clause i).lits = [] ∧ (db1.clause i).lits = l0 :: l1 :: tl ∧ ((db1.clause i).learnt = false → (l0 :: l1 :: tl).length = 2))) ∧
      (db1.cert = db.cert ++ [.add (l0 :: l1 :: tl)] ∨ (db1.cert = db.cert ∧ ∃ i a b, l0 :: l1 :: tl = [a, b] ∧
        ((db.clause i).lits = [a, b] ∨ (db.clause i).lits = [b, a]))) ∧
      ((∃ cid, r = .clause cid ∧ (db1.clause cid).lits = l0 :: l1 :: tl) ∨ (∃ cid, r = .registered cid ∧ tl = [] ∧ BinC db1 l0 l1)) := by
    intro s1 hs1
    obtain ⟨⟨db1, r⟩, e1⟩ : ∃ x, db.newClause s1.level (l0 :: l1 :: tl) true = some x := by
      unfold Cdb.newClause; simp only []; split <;> exact ⟨_, rfl⟩
    obtain ⟨w, hcase⟩ := Cdb.newClause_spec h.wf hv.nd e1
    refine ⟨db1, r, e1, ?_⟩
    rcases hcase with ⟨cid, a, b, rfl, rfl, ev, ec⟩ | ⟨cid, c, rfl, -, -, ec, elits, -, -, elearn, -, ecl, ecert⟩
    · refine ⟨hs1, fun i => .inl ⟨rfl, rfl⟩, .inr ⟨rfl, cid, a, b, ev, ec⟩, .inr ⟨cid, rfl, ?_⟩⟩
      simp only [List.cons.injEq] at ev
      obtain ⟨rfl, rfl, rfl⟩ := ev
      exact ⟨rfl, cid, ec⟩
    · have hkeep : ∀ i, (db.clause i).lits ≠ [] → db1.clause i = db.clause i := by
        intro i hi; rw [ecl, upd_of_ne]; rintro rfl; exact hi ec
      refine ⟨hs1.grow w (fun i hi => by rw [hkeep i hi]), fun i => ?_, .inl ecert, .inl ⟨cid, rfl, by rw [ecl]; simp [upd, elits]⟩⟩
      by_cases e : i = cid
      · subst e; right; rw [ecl]; refine ⟨ec, by simp [upd, elits], ?_⟩
        simp only [upd_same, elearn]; simp
      · left; rw [ecl, upd_of_ne _ _ e]; exact ⟨rfl, rfl⟩
  unfold learnClause
  by_cases hdr : (drift && decide (0 < lv) && decide (2 < (l0 :: l1 :: tl).length)) = true
  · simp only [hdr, if_true]
    have hp1 := (h.cancelUntil low (lv - 1)).clearSaved
    obtain ⟨db1, r, e1, p1, c1, ce1, hr1⟩ := hnew _ hp1
    have hroot : ∀ l, ((s.cancelUntil low (lv - 1)).clearSaved).tr l → ((s.cancelUntil low (lv - 1)).clearSaved).level l.var = 0 →
        (s.tr l ∧ s.level l.var = 0) ∨ (∃ rest, l0 :: l1 :: tl = l :: rest ∧ ∀ x ∈ rest, s.tr x.neg ∧ s.level x.var = 0) := by
      intro l hl hl0
      refine .inl ⟨cancelUntil_root h.inv (low := low) (lv := lv - 1) hl, ?_⟩
      have := cancelUntil_level (s := s) (low := low) (lv := lv - 1)
      rw [← this]; exact hl0
    have hf : Stk.Frame s ((s.cancelUntil low (lv - 1)).clearSaved) := by
      have := cancelUntil_frame h.inv low (lv - 1)
      exact ⟨this.elim, this.numVars, this.numAsserted, this.numElim, this.assign, by simp [Stk.clearSaved]⟩
    have hok : HOK db s (l0 :: l1 :: tl) db1 ((s.cancelUntil low (lv - 1)).clearSaved) :=
      ⟨p1, c1, ce1, hroot, hf, fun l hl => .inr (.inl (cancelUntil_trail_sub l hl))⟩
    rw [e1]
    rcases hr1 with ⟨cid, rfl, -⟩ | ⟨cid, rfl, -⟩
    · exact ⟨_, _, rfl, hok⟩
    · exact ⟨_, _, rfl, hok⟩
  · have hdr' : (drift && decide (0 < lv) && decide (2 < (l0 :: l1 :: tl).length)) = false := by simpa using hdr
    simp only [hdr', Bool.false_eq_true, if_false]
    have hp1 := h.cancelUntil low lv
    obtain ⟨db1, r, e1, p1, c1, ce1, hr1⟩ := hnew _ hp1
    have hdl : (s.cancelUntil low lv).dl = lv := by rw [cancelUntil_dl]; omega
    have hn0 : (s.cancelUntil low lv).assign l0.var = none := by
      rw [cancelUntil_assign h.inv, if_neg (by omega)]
    have hrest : ∀ x ∈ l1 :: tl, (s.cancelUntil low lv).tr x.neg := by
      intro x hx
      unfold tr; rw [Lit.neg_var, cancelUntil_assign h.inv, if_pos (hr x hx).2.2]
      exact (hr x hx).1
    have hfin : ∀ rs, Implied db1 (s.cancelUntil low lv) l0 rs →
        HOK db s (l0 :: l1 :: tl) db1 ((s.cancelUntil low lv).assignImpl l0 rs lv) := by
      intro rs hi
      obtain ⟨f1, f2, f3, f4, f5, f6, f7, f8, f9, f10⟩ := assignImpl_fields (s.cancelUntil low lv) l0 rs lv
      have hf := cancelUntil_frame h.inv low lv
      refine ⟨?_, c1, ce1, ?_, ⟨f9.trans hf.elim, f10.trans hf.numVars, ?_, ?_, ?_, ?_⟩, ?_⟩
      · have := p1.assignImpl hn0 hi; rw [hdl] at this; exact this
      · intro l hl hl0
        unfold tr at hl; rw [f1] at hl; rw [f2] at hl0
        by_cases e : l.var = l0.var
        · right
          have : l = l0 := by
            rw [e, upd_same] at hl; cases l; cases l0; simp at hl e; simp [e, hl]
          subst this
          rw [upd_same] at hl0; subst hl0
          refine ⟨_, rfl, fun x hx => ⟨(hr x hx).1, ?_⟩⟩
          have := (hr x hx).2.2; omega
        · left
          rw [upd_of_ne _ _ e] at hl hl0
          exact ⟨cancelUntil_root h.inv hl, by rw [← cancelUntil_level (s := s) (low := low) (lv := lv)]; exact hl0⟩
      · rw [← hf.numAsserted]; unfold Stk.assignImpl; simp only []; split <;> rfl
      · rw [← hf.numElim]; unfold Stk.assignImpl; simp only []; split <;> rfl
      · intro v hv'
        rw [f1] at hv'
        by_cases e : v = l0.var
        · subst e; have := tr_assigned t0; simpa using this
        · rw [upd_of_ne _ _ e] at hv'; exact hf.assign v hv'
      · intro l hl; rw [f7] at hl; exact hf.saved l hl
      · intro l hl; rw [f4] at hl
        rcases List.mem_append.1 hl with hl | hl
        · exact .inr (.inl (cancelUntil_trail_sub l hl))
        · simp at hl; subst hl; exact .inr (.inr ⟨_, rfl⟩)
    rw [e1]
    rcases hr1 with ⟨cid, rfl, hcl⟩ | ⟨cid, rfl, htl, hb⟩
    · refine ⟨_, _, rfl, hfin _ ?_⟩
      split
      · rename_i hl2
        have : tl = [] := by simpa using hl2
        subst this
        exact ⟨⟨cid, by simpa using .inl hcl⟩, hrest l1 (by simp)⟩
      · exact ⟨_, hcl, hrest⟩
    · exact ⟨_, _, rfl, hfin _ ⟨by simpa using hb, hrest l1 (by simp)⟩⟩

theorem PInv.log {db : Cdb} {s : Stk} (h : PInv db s) (r : CertRec) : PInv (db.log r) s :=
  h.grow (Cdb.wf_lits h.wf (fun _ => ⟨rfl, rfl⟩) rfl rfl rfl rfl rfl) (fun _ _ => rfl)

theorem learnUnit_spec {db : Cdb} {s : Stk} (h : PInv db s) (hd : 0 < s.dl) {low : Nat → Bool} {l0 : Lit} {lv : Nat}
    (hv : LearntOK db s [l0] lv) : ∃ db' s', learnUnit db s low l0 = .ok db' s' ∧ HOK db s [l0] db' s' := by
  obtain ⟨l0', rest, e, t0, e0, -⟩ := hv.asserting
  simp only [List.cons.injEq] at e
  obtain ⟨rfl, rfl⟩ := e
  unfold learnUnit
  have hval : s.val l0 = some false := val_false.2 t0
  rw [hval, if_neg (by simp), if_neg (by simp; omega)]
  have hn : (s.cancelUntil low 0).assign l0.var = none := by rw [cancelUntil_assign h.inv, if_neg (by omega)]
  have hp := h.assignRoot low l0
  obtain ⟨i1, i2, i3⟩ := h.inv.assignRoot low l0
  obtain ⟨a1, a2, a3, a4, a5, a6⟩ := assignRoot_saved (s := s) (low := low) (l := l0)
  rcases i3 with ⟨-, hok, ea, et⟩ | ⟨ht, -⟩ | ⟨ht, -⟩
  · generalize hg : s.assignRoot low l0 = g at *
    obtain ⟨s1, b⟩ := g
    simp only [] at hok hp i1 i2 ea et a1 a2 a3 a4 a5 a6
    subst hok
    have hf := cancelUntil_frame h.inv low 0
    refine ⟨_, _, rfl, hp.log _, fun i => .inl ⟨rfl, rfl⟩, .inl rfl, ?_, ⟨a3, a4, a5, a6, ?_, ?_⟩, ?_⟩
    · intro l hl hl0
      by_cases e : l.var = l0.var
      · right
        refine ⟨[], ?_, by simp⟩
        unfold tr at hl; rw [ea, e, upd_same] at hl
        cases l; cases l0; simp at hl e; simp [e, hl]
      · left
        unfold tr at hl; rw [ea, upd_of_ne _ _ e] at hl
        refine ⟨cancelUntil_root h.inv hl, ?_⟩
        rw [cancelUntil_assign h.inv] at hl
        split at hl
        · omega
        · simp at hl
    · intro v hv'
      rw [ea] at hv'
      by_cases e : v = l0.var
      · subst e; have := tr_assigned t0; simpa using this
      · rw [upd_of_ne _ _ e] at hv'; exact hf.assign v hv'
    · intro l hl; rw [a1] at hl; exact hf.saved l hl
    · intro l hl; rw [et] at hl
      rcases List.mem_append.1 hl with hl | hl
      · exact .inr (.inl (cancelUntil_trail_sub l hl))
      · simp at hl; subst hl; exact .inr (.inr ⟨_, rfl⟩)
  · have := tr_assigned ht; exact absurd hn this
  · have := tr_assigned ht; rw [Lit.neg_var] at this; exact absurd hn this

theorem LearntOK.congr {db db' : Cdb} {s : Stk} {v : Cls} {lv : Nat} (h : LearntOK db s v lv)
    (hl : ∀ i, (db'.clause i).lits = (db.clause i).lits) : LearntOK db' s v lv :=
  ⟨fun D hD => h.implied D (hD.congr (fun i => (hl i).symm) hD.root), h.nd, h.asserting, fun x hx => by
    obtain ⟨i, y, h1, h2⟩ := h.held x hx
    exact ⟨i, y, by rw [hl i]; exact h1, h2⟩⟩

theorem HOK.of_lits {db db1 : Cdb} {s : Stk} {v : Cls} {db' : Cdb} {s' : Stk} (h : HOK db1 s v db' s')
    (hl : ∀ i, (db1.clause i).lits = (db.clause i).lits ∧ (db1.clause i).learnt = (db.clause i).learnt) (hc : db1.cert = db.cert) :
    HOK db s v db' s' := by
  refine ⟨h.inv, fun i => ?_, ?_, h.root, h.frame, h.saved⟩
  · rw [← (hl i).1, ← (hl i).2]; exact h.clauses i
  · rw [← hc]
    rcases h.cert with e | ⟨e, i, a, b, e1, e2⟩
    · exact .inl e
    · exact .inr ⟨e, i, a, b, e1, by rw [← (hl i).1]; exact e2⟩

/-- The result of `handle_conflict` is right. -/
def HRes.Good (db : Cdb) (s : Stk) (l : Lit) (r : Reason) : HRes → Prop
  | .ok db' s' => ∃ v lv seen, conflictAnalyze db s l r = some (v, lv, seen) ∧ LearntOK db s v lv ∧ HOK db s v db' s'
  | .unsat db' s' => db' = db ∧ s' = s ∧ ∀ D, ¬ Mod db s D
  | .panic => conflictAnalyze db s l r = none

/-- `handle_conflict`: a clause is learnt, or no model exists. -/
theorem handleConflict_spec {db : Cdb} {s : Stk} (h : PInv db s) (hd : 0 < s.dl) {low : Nat → Bool} {rr : Option Nat} {drift : Bool}
    {l : Lit} {r : Reason} (hc : ConfOK db s l r) : (handleConflict db s low rr drift l r).Good db s l r := by
  unfold handleConflict
  generalize hg : rootConflict db s r = g
  cases g with
  | true =>
    simp only [if_true, HRes.Good, true_and]
    intro D hD
    cases r with
    | impl cid =>
      simp only [rootConflict, List.all_eq_true, beq_iff_eq] at hg
      obtain ⟨⟨rest, e⟩, hf⟩ := hc
      obtain ⟨y, hy, hyn⟩ := hD.conf cid (by rw [e]; simp)
      exact hyn (hD.root _ (hf y hy) (hg y hy))
    | _ => simp [rootConflict] at hg
  | false =>
    simp only [Bool.false_eq_true, if_false]
    split
    · rename_i e; exact e
    · rename_i lv seen e
      obtain ⟨l0, rest, e1, -⟩ := (conflictAnalyze_spec h.wf h.inv hd hc e).1.asserting
      simp at e1
    · rename_i l0 lv seen e
      have hl := (conflictAnalyze_spec h.wf h.inv hd hc e).1
      obtain ⟨db', s', e2, hok⟩ := learnUnit_spec (low := low) (db := db.rerankOne s.level rr)
        (h.grow (wf_rerankOne h.wf _ _) (fun i _ => (rerankOne_lits db s.level rr i).1)) hd
        (hl.congr fun i => (rerankOne_lits db s.level rr i).1)
      rw [e2]
      exact ⟨_, _, _, e, hl, hok.of_lits (rerankOne_lits db s.level rr) (rerankOne_cert db s.level rr)⟩
    · rename_i v lv seen hn0 hn1 e
      have hl := (conflictAnalyze_spec h.wf h.inv hd hc e).1
      have h2 : 2 ≤ v.length := by
        match v, hn0, hn1 with
        | [], hn0, _ => exact (hn0 rfl).elim
        | [x], _, hn1 => exact (hn1 x rfl).elim
        | _ :: _ :: _, _, _ => simp
      obtain ⟨db', s', e2, hok⟩ := learnClause_spec (low := low) (drift := drift) (db := db.rerankOne s.level rr)
        (h.grow (wf_rerankOne h.wf _ _) (fun i _ => (rerankOne_lits db s.level rr i).1))
        (hl.congr fun i => (rerankOne_lits db s.level rr i).1) h2
      rw [e2]
      exact ⟨_, _, _, e, hl, hok.of_lits (rerankOne_lits db s.level rr) (rerankOne_cert db s.level rr)⟩

end Splr
