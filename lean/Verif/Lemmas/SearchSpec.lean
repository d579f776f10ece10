import Verif.Lemmas.ElimGlob
/-! The main loop: decisions, learning, restarts, stages. -/
namespace Splr
open Stk

/-! ## learning -/

/-- Only ranks and statistics of clauses change. -/
theorem Tr.relabel {k r : Bool} {db : Cdb} {s : Stk} {db' : Cdb} (hi : RInv db s) (hw : db'.WF) (hl : ∀ i, (db'.clause i).lits = (db.clause i).lits)
    (hn : ∀ i, (db'.clause i).learnt = (db.clause i).learnt) (ho : ∀ i, (db'.clause i).occurLinked = (db.clause i).occurLinked)
    (hc : db'.cert = db.cert) : Tr k r db s db' s := by
  refine Tr.ofDb ⟨hw, hi.inv.grow fun i _ => hl i⟩ [] [] (by rw [hc]; simp) (by simp) (fun h => by rw [lives_perm h hw fun i => by rw [hl]]) .nil ?_ ?_ ?_ (by simp) (by simp) ?_
  · intro i hne; left; rw [hl] at hne ⊢; exact ⟨i, hne, fun _ => .rfl⟩
  · intro i hne hp; right; refine ⟨i, by rw [hl]; exact hne, ?_, fun x hx => by rw [hl] at hx; exact hx⟩
    unfold Prim at *; rw [hl, hn]; exact hp
  · intro _ i hne; right; exact ⟨i, by rw [hl]; exact hne, fun x hx => by rw [hl] at hx; exact hx⟩
  · intro _ hu i hne; rw [ho]; exact hu i (by rw [← hl]; exact hne)

theorem rerankOne_linked (db : Cdb) (level : Nat → Nat) (rr : Option Nat) : ∀ i, ((db.rerankOne level rr).clause i).occurLinked = (db.clause i).occurLinked := by
  intro i
  cases rr with
  | none => rfl
  | some cid =>
    unfold Cdb.rerankOne; simp only []
    split
    · rfl
    · simp only [Cdb.setC, upd_apply]; split
      · rename_i e; subst e; rfl
      · rfl

theorem Tr.rerankOne {k r : Bool} {db : Cdb} {s : Stk} (hi : RInv db s) (rr : Option Nat) : Tr k r db s (db.rerankOne s.level rr) s :=
  Tr.relabel hi (wf_rerankOne hi.wf _ _) (fun i => (rerankOne_lits db s.level rr i).1) (fun i => (rerankOne_lits db s.level rr i).2)
    (rerankOne_linked db s.level rr) (rerankOne_cert db s.level rr)

theorem MC.pull {k r : Bool} {db : Cdb} {s s1 : Stk} (t : Tr k r db s db s1) {D : Lit → Prop} (h : MC db s1 D) : MC db s D :=
  ⟨⟨h.1.cl, h.1.conf, fun l a b => h.1.root l (t.root l ⟨a, b⟩).1 (t.root l ⟨a, b⟩).2⟩, h.2⟩

theorem LearntOK.assigned {db : Cdb} {s : Stk} {v : Cls} {lv : Nat} (h : LearntOK db s v lv) {x : Lit} (hx : x ∈ v) : s.assign x.var ≠ none := by
  obtain ⟨l0, rest, rfl, t0, -, hr, -⟩ := h.asserting
  rcases List.mem_cons.1 hx with rfl | hx
  · have := tr_assigned t0; rwa [Lit.neg_var] at this
  · have := tr_assigned (hr x hx).1; rwa [Lit.neg_var] at this

theorem learnClause_tr {db : Cdb} {s : Stk} (h : PInv db s) (hd : Dom db s) {low : Nat → Bool} {drift : Bool} {v : Cls} {lv : Nat} (hv : LearntOK db s v lv)
    {db' : Cdb} {s' : Stk} (e : learnClause db s low drift v lv = .ok db' s') : Tr true false db s db' s' := by
  have hv0 := hv
  obtain ⟨l0, rest, rfl, t0, e0, hr, -, hm⟩ := hv.asserting
  cases rest with
  | nil => simp [learnClause] at e
  | cons l1 tl =>
  have hlv1 := hm l1 tl rfl
  have hlt : lv < s.dl := by rw [← hlv1]; exact (hr l1 (by simp)).2.1
  have hadd : ∀ s1, Tr true false db s db s1 → ∀ db1 rf, db.newClause s1.level (l0 :: l1 :: tl) true = some (db1, rf) →
      Tr true false db s db1 s1 ∧ ((∃ cid, rf = .clause cid ∧ (db1.clause cid).lits = l0 :: l1 :: tl) ∨ (∃ cid, rf = .registered cid ∧ tl = [] ∧ BinC db1 l0 l1)) := by
    intro s1 t1 db1 rf en
    obtain ⟨t2, -⟩ := Tr.add (k := true) (r := false) t1.rinv hv.nd en (fun D hD hx => hv.implied D (hD.pull t1).1 hx)
      (fun _ x hx => t1.sp.okv.2 (hd.as _ (hv0.assigned hx)))
    refine ⟨t1.trans t2, ?_⟩
    obtain ⟨w, hcase⟩ := Cdb.newClause_spec h.wf hv.nd en
    rcases hcase with ⟨cid, a, b, rfl, rfl, ev, ec⟩ | ⟨cid, c, rfl, -, -, ec, elits, -, -, -, -, ecl, -⟩
    · simp only [List.cons.injEq] at ev
      obtain ⟨rfl, rfl, rfl⟩ := ev
      exact .inr ⟨cid, rfl, rfl, cid, ec⟩
    · exact .inl ⟨cid, rfl, by rw [ecl]; simp [upd, elits]⟩
  unfold learnClause at e
  by_cases hdr : (drift && decide (0 < lv) && decide (2 < (l0 :: l1 :: tl).length)) = true
  · simp only [hdr, if_true] at e
    have t1 : Tr true false db s db ((s.cancelUntil low (lv - 1)).clearSaved) :=
      (Tr.cancelUntil h.rinv low (lv - 1)).trans (Tr.clearSaved (Tr.cancelUntil (k := true) h.rinv low (lv - 1)).rinv)
    split at e
    · simp at e
    · rename_i db1 cid en
      simp only [HRes.ok.injEq] at e; obtain ⟨rfl, rfl⟩ := e
      exact (hadd _ t1 _ _ en).1
    · rename_i db1 cid en
      simp only [HRes.ok.injEq] at e; obtain ⟨rfl, rfl⟩ := e
      exact (hadd _ t1 _ _ en).1
    · simp at e
  · have hdr' : (drift && decide (0 < lv) && decide (2 < (l0 :: l1 :: tl).length)) = false := by simpa using hdr
    simp only [hdr', Bool.false_eq_true, if_false] at e
    have t1 : Tr true false db s db (s.cancelUntil low lv) := Tr.cancelUntil h.rinv low lv
    have hdl : (s.cancelUntil low lv).dl = lv := by rw [cancelUntil_dl]; omega
    have hn0 : (s.cancelUntil low lv).assign l0.var = none := by
      rw [cancelUntil_assign h.inv, if_neg (by omega)]
    have hrest : ∀ x ∈ l1 :: tl, (s.cancelUntil low lv).tr x.neg := by
      intro x hx
      unfold tr; rw [Lit.neg_var, cancelUntil_assign h.inv, if_pos (hr x hx).2.2]
      exact (hr x hx).1
    have imp : ∀ db1 rs, Tr true false db s db1 (s.cancelUntil low lv) → Implied db1 (s.cancelUntil low lv) l0 rs →
        Tr true false db s db1 ((s.cancelUntil low lv).assignImpl l0 rs lv) := by
      intro db1 rs t2 hi
      have := (PStep.imply (db := db1) l0 rs hn0 hi).trn (k := true) (r := false) t2.rinv
      rw [hdl] at this
      exact t2.trans this
    split at e
    · simp at e
    · rename_i db1 cid en
      simp only [HRes.ok.injEq] at e; obtain ⟨rfl, rfl⟩ := e
      obtain ⟨t2, hc⟩ := hadd _ t1 _ _ en
      refine imp _ _ t2 ?_
      rcases hc with ⟨cid', e1, hcl⟩ | ⟨cid', e1, -⟩
      · simp only [RefClause.clause.injEq] at e1; subst e1
        split
        · rename_i hl2
          have : tl = [] := by simpa using hl2
          subst this
          exact ⟨⟨cid, by simpa using .inl hcl⟩, hrest l1 (by simp)⟩
        · exact ⟨_, hcl, hrest⟩
      · simp at e1
    · rename_i db1 cid en
      simp only [HRes.ok.injEq] at e; obtain ⟨rfl, rfl⟩ := e
      obtain ⟨t2, hc⟩ := hadd _ t1 _ _ en
      refine imp _ _ t2 ?_
      rcases hc with ⟨cid', e1, hcl⟩ | ⟨cid', e1, htl, hb⟩
      · simp at e1
      · exact ⟨by simpa using hb, hrest l1 (by simp)⟩
    · simp at e

theorem assignRoot_cancel (s : Stk) (low : Nat → Bool) (l : Lit) : s.assignRoot low l = (s.cancelUntil low 0).assignRoot noLow l := by
  have : (s.cancelUntil low 0).cancelUntil noLow 0 = s.cancelUntil low 0 := cancelUntil_noop (by rw [cancelUntil_dl]; omega)
  unfold Stk.assignRoot; rw [this]

theorem learnUnit_tr {db : Cdb} {s : Stk} (h : PInv db s) (hd : Dom db s) {low : Nat → Bool} {l0 : Lit} {lv : Nat} (hv : LearntOK db s [l0] lv)
    {db' : Cdb} {s' : Stk} (e : learnUnit db s low l0 = .ok db' s') : Tr true false db s db' s' := by
  unfold learnUnit at e
  split at e
  · simp at e
  split at e
  · simp at e
  have t1 : Tr true false db s db (s.cancelUntil low 0) := Tr.cancelUntil h.rinv low 0
  have hl0 : (s.cancelUntil low 0).lim = [] := cancelUntil_lim0
  have hu := rg_unit (k := true) (r := false) (l := l0) t1.rinv hl0 (fun D hD hn => hv.implied D (hD.pull t1).1 (by simpa using hn))
    (fun _ => t1.sp.okv.2 (hd.as _ (hv.assigned (by simp))))
  rw [assignRoot_cancel] at e
  unfold Stk.assignRootRes at hu
  generalize hg : (s.cancelUntil low 0).assignRoot noLow l0 = g at *
  obtain ⟨s1, b⟩ := g
  cases b with
  | false => simp at e
  | true =>
    simp only [HRes.ok.injEq] at e; obtain ⟨rfl, rfl⟩ := e
    exact t1.trans hu.1

theorem handle_tr {db : Cdb} {s : Stk} (h : PInv db s) (hdom : Dom db s) (hd : 0 < s.dl) {low : Nat → Bool} {rr : Option Nat} {drift : Bool}
    {l : Lit} {r : Reason} (hc : ConfOK db s l r) {db' : Cdb} {s' : Stk} (e : handleConflict db s low rr drift l r = .ok db' s') :
    Tr true false db s db' s' := by
  have hp1 : PInv (db.rerankOne s.level rr) s := h.grow (wf_rerankOne h.wf _ _) (fun i _ => (rerankOne_lits db s.level rr i).1)
  have t0 : Tr true false db s (db.rerankOne s.level rr) s := Tr.rerankOne h.rinv rr
  unfold handleConflict at e
  split at e
  · simp at e
  split at e
  · simp at e
  · simp at e
  · rename_i l0 lv seen ea
    have hl := (conflictAnalyze_spec h.wf h.inv hd hc ea).1
    exact t0.trans (learnUnit_tr hp1 (t0.dom hdom) (hl.congr fun i => (rerankOne_lits db s.level rr i).1) e)
  · rename_i v lv seen hn0 hn1 ea
    have hl := (conflictAnalyze_spec h.wf h.inv hd hc ea).1
    exact t0.trans (learnClause_tr hp1 (t0.dom hdom) (hl.congr fun i => (rerankOne_lits db s.level rr i).1) e)

/-! ## decisions -/

theorem PInv.heap {db : Cdb} {s : Stk} (h : PInv db s) (hp : List Nat) : PInv db { s with heap := hp } :=
  ⟨h.wf, h.inv.congr rfl rfl rfl rfl rfl h.inv.qh (fun _ _ _ e _ => e) (fun _ _ h => h), h.saved.grow rfl rfl rfl (fun _ _ => rfl)⟩

/-- A variable that is assigned or eliminated leaves the queue. -/
theorem Tr.pop {k r : Bool} {db : Cdb} {s : Stk} (h : PInv db s) {v : Nat} (hv : s.assign v ≠ none ∨ s.elim v = true) :
    Tr k r db s db { s with heap := s.heap.filter (· ≠ v) } := by
  refine Tr.stk (h.heap _).rinv (.refl _) (fun _ h => h) (fun _ hD _ hl => hD.1.root _ hl.1 hl.2) ⟨rfl, rfl, id, ?_⟩ (fun hd v hv => hd.as v hv)
    (fun _ h => h) (fun w hw => hw.imp (fun h => (List.mem_filter.1 h).1) .inl)
  intro hh w hw ha
  refine (hh w hw ha).imp (fun hm => List.mem_filter.2 ⟨hm, ?_⟩) id
  simp only [decide_eq_true_eq]
  rintro rfl
  rcases hv with hv | hv
  · exact hv ha
  · have := hw.2.2
    rw [show s.elim w = false from this] at hv; simp at hv

/-- The decision on a variable that leaves the queue. -/
theorem Tr.popDecide {k r : Bool} {db : Cdb} {s : Stk} (h : PInv db s) {l : Lit} (hn : s.assign l.var = none) (hok : Dom db s → Okv s l.var) :
    Tr k r db s db ({ s with heap := s.heap.filter (· ≠ l.var) }.assignDecision l) := by
  have t := Tr.assignDecision (k := k) (r := r) h.rinv hn hok
  have t2 := Tr.pop (k := k) (r := r) (h.assignDecision hn) (v := l.var) (.inl (by simp [Stk.assignDecision]))
  exact t.trans t2

theorem choose_mem {pick : List Nat → Nat} {h : List Nat} (hn : h ≠ []) : choose pick h ∈ h := by
  unfold choose; split
  · assumption
  · cases h with
    | nil => exact absurd rfl hn
    | cons a t => simp

theorem heapRoot_spec {k r : Bool} {pick : List Nat → Nat} {db : Cdb} {s : Stk} (h : PInv db s) {v : Nat} {s1 : Stk} (e : s.heapRoot pick = some (v, s1)) :
    ∃ s0, PInv db s0 ∧ Tr k r db s db s0 ∧ s1 = { s0 with heap := s0.heap.filter (· ≠ v) } ∧ v ∈ s0.heap ∧ s0.assign = s.assign ∧
      s0.trail = s.trail ∧ s0.lim = s.lim ∧ s0.qhead = s.qhead := by
  unfold heapRoot at e
  simp only [] at e
  have h0 : PInv db (if s.heap = [] then s.clearSaved else s) ∧ Tr k r db s db (if s.heap = [] then s.clearSaved else s) ∧
      (if s.heap = [] then s.clearSaved else s).assign = s.assign ∧ (if s.heap = [] then s.clearSaved else s).trail = s.trail ∧
      (if s.heap = [] then s.clearSaved else s).lim = s.lim ∧ (if s.heap = [] then s.clearSaved else s).qhead = s.qhead := by
    split
    · exact ⟨h.clearSaved, Tr.clearSaved h.rinv, rfl, rfl, rfl, rfl⟩
    · exact ⟨h, .refl h.rinv, rfl, rfl, rfl, rfl⟩
  generalize (if s.heap = [] then s.clearSaved else s) = s0 at e h0
  split at e
  · simp at e
  · rename_i hne
    simp only [Option.some.injEq, Prod.mk.injEq] at e
    obtain ⟨rfl, rfl⟩ := e
    exact ⟨s0, h0.1, h0.2.1, rfl, choose_mem hne, h0.2.2⟩

theorem selectVar_spec {k r : Bool} {pick : List Nat → Nat} {db : Cdb} : ∀ {n : Nat} {s : Stk}, PInv db s → ∀ {v : Nat} {s1 : Stk},
    selectVar pick n s = some (v, s1) → ∃ s0, PInv db s0 ∧ Tr k r db s db s0 ∧ s1 = { s0 with heap := s0.heap.filter (· ≠ v) } ∧ v ∈ s0.heap ∧
      s0.assign v = none ∧ s0.elim v = false ∧ s0.assign = s.assign ∧ s0.trail = s.trail ∧ s0.lim = s.lim ∧ s0.qhead = s.qhead
  | 0, _, _, _, _, e => by simp [selectVar] at e
  | n + 1, s, h, v, s1, e => by
    unfold selectVar at e
    cases hr : s.heapRoot pick with
    | none => rw [hr] at e; simp at e
    | some w =>
      obtain ⟨w, s2⟩ := w
      rw [hr] at e; simp only [] at e
      obtain ⟨s0, p0, t0, rfl, hm, ha, hf⟩ := heapRoot_spec (k := k) (r := r) h hr
      split at e
      · rename_i hc
        simp only [Option.some.injEq, Prod.mk.injEq] at e
        obtain ⟨rfl, rfl⟩ := e
        exact ⟨s0, p0, t0, rfl, hm, hc.1, hc.2, ha, hf⟩
      · rename_i hc
        have hc' : s0.assign w ≠ none ∨ s0.elim w = true := by
          by_cases h1 : s0.assign w = none
          · right
            cases h2 : s0.elim w with
            | true => rfl
            | false => exact absurd ⟨h1, h2⟩ hc
          · exact .inl h1
        have tp := Tr.pop (k := k) (r := r) p0 hc'
        obtain ⟨s3, p3, t3, rfl, hm3, a3, l3, b3, f3⟩ := selectVar_spec (k := k) (r := r) (p0.heap _) e
        exact ⟨s3, p3, (t0.trans tp).trans t3, rfl, hm3, a3, l3, b3.trans ha, f3.1.trans hf.1, f3.2.1.trans hf.2.1, f3.2.2.trans hf.2.2⟩

/-- A decision is made on an undecided variable of the problem. -/
theorem decideStep_spec {k r : Bool} {o : Orc} {db : Cdb} {s : Stk} (h : PInv db s) (hd : Dom db s) {s' : Stk} (e : decideStep o s = some s') :
    PInv db s' ∧ Tr k r db s db s' ∧ (s' = s ∧ s.remains = true ∨ s.remains = false ∧ ∃ v, s.assign v = none ∧ Okv s v ∧
      s'.assign = upd s.assign v (some (o.phase v)) ∧ s'.trail = s.trail ++ [⟨v, o.phase v⟩] ∧ s'.dl = s.dl + 1) := by
  unfold decideStep at e
  split at e
  · rename_i hr
    simp only [Option.some.injEq] at e; subst e
    exact ⟨h, .refl h.rinv, .inl ⟨rfl, hr⟩⟩
  · rename_i hr
    cases hs : selectVar o.pick s.selectFuel s with
    | none => rw [hs] at e; simp at e
    | some w =>
      obtain ⟨v, s1⟩ := w
      rw [hs] at e; simp only [Option.some.injEq] at e
      obtain ⟨s0, p0, t0, rfl, hm, ha, he, hea, het, hel, -⟩ := selectVar_spec (k := k) (r := r) h hs
      have hd0 := t0.dom hd
      have hok : Okv s0 v := ⟨(hd0.hp v (.inl hm)).1, (hd0.hp v (.inl hm)).2, he⟩
      subst e
      refine ⟨(p0.heap _).assignDecision (l := ⟨v, o.phase v⟩) ha, t0.trans (Tr.popDecide p0 (l := ⟨v, o.phase v⟩) ha fun _ => hok), .inr ⟨by simpa using hr, v, ?_, t0.sp.okv.1 hok, ?_, ?_, ?_⟩⟩
      · rw [← hea]; exact ha
      · rw [← hea]; rfl
      · rw [← het]; rfl
      · unfold Stk.dl; rw [← hel]; simp [Stk.assignDecision]

/-! ## reduction -/

theorem lbdOf_le {level : Nat → Nat} {c : Cls} (h : c.length < 8192) : lbdOf level c ≤ c.length := by
  unfold lbdOf; rw [if_neg (by omega)]
  calc _ ≤ ((c.map fun l => level l.var).filter (· ≠ 0)).length := (List.dedup_sublist _).length_le
    _ ≤ (c.map fun l => level l.var).length := List.length_filter_le _ _
    _ = c.length := by simp

theorem rerank_same (db : Cdb) (level : Nat → Nat) : ∀ i, ((db.rerank level).clause i).lits = (db.clause i).lits ∧
    ((db.rerank level).clause i).learnt = (db.clause i).learnt ∧ ((db.rerank level).clause i).occurLinked = (db.clause i).occurLinked := by
  intro i; unfold Cdb.rerank; simp only []; split <;> exact ⟨rfl, rfl, rfl⟩

/-- `reduce` at the root level deletes learnt clauses of three or more literals only. -/
theorem reduce_tr {r : Bool} {db : Cdb} {s : Stk} (hi : RInv db s) (hl : s.lim = []) {victims : List Nat} {db' : Cdb}
    (e : db.reduce s.level victims = some db') : Tr false r db s db' s ∧ (Unl db → Unl db') := by
  set vs := (victims.filter (db.rerank s.level).reducible).dedup with hvs
  have hred : ∀ i ∈ vs, ((db.rerank s.level).clause i).lits ≠ [] ∧ ¬ Prim (db.clause i) := by
    intro i hi
    rw [hvs, List.mem_dedup] at hi
    have := (List.mem_filter.1 hi).2
    simp only [Cdb.reducible, Bool.and_eq_true, decide_eq_true_eq, Bool.not_eq_true'] at this
    obtain ⟨⟨⟨_, hd⟩, hl⟩, hr⟩ := this
    have hd0 : ((db.clause i).dead) = false := by
      cases hdd : (db.clause i).dead
      · rfl
      · simp [Cdb.rerank, hdd] at hd
    simp only [Cdb.rerank, hd0] at hd hl hr ⊢
    refine ⟨?_, ?_⟩
    · intro e; simp at e; simp [Cl.dead, e] at hd0
    · rintro (hp | hp)
      · simp [hp] at hl
      · have h1 := lbdOf_le (level := s.level) (c := (db.clause i).lits) (by omega)
        simp at hr; omega
  obtain ⟨d, ed, w, -, hk, hz, -⟩ := Cdb.foldl_remove (Cdb.wf_rerank hi.wf s.level) (List.nodup_dedup (victims.filter (db.rerank s.level).reducible))
    (fun i hi => (hred i hi).1)
  have : d = db' := by
    have : db.reduce s.level victims = some d := ed
    rw [this] at e; simpa using e
  subst this
  have hs := rerank_same db s.level
  obtain ⟨ds, hds, hdn, hdl⟩ := Cdb.Dels.foldl (Cdb.wf_rerank hi.wf s.level) ed
  have hlr : (db.rerank s.level).lives = db.lives := lives_perm hi.wf (Cdb.wf_rerank hi.wf s.level) fun i => by rw [(hs i).1]
  rw [hlr] at hdl
  have hlive : ∀ i, (d.clause i).lits ≠ [] → i ∉ vs := fun i hne hm => hne (hz i hm)
  refine ⟨Tr.ofDb ⟨w, hi.inv.root_db hl⟩ [] ds (by rw [hds]; simp [Cdb.rerank]) hdn (fun _ => by simpa using hdl) .nil ?_ ?_ (by simp) (by simp) (by simp) (by simp), ?_⟩
  · intro i hne
    have h1 := hk i (hlive i hne)
    rw [h1, (hs i).1] at hne ⊢
    exact .inl ⟨i, hne, fun _ => .rfl⟩
  · intro i hne hp
    have h1 := hk i (fun hm => (hred i hm).2 hp)
    refine .inr ⟨i, by rw [h1, (hs i).1]; exact hne, ?_, fun x hx => by rw [h1, (hs i).1] at hx; exact hx⟩
    unfold Prim at *; rw [h1, (hs i).1, (hs i).2.1]; exact hp
  · intro hu i hne
    have h1 := hk i (hlive i hne)
    rw [h1, (hs i).1] at hne
    rw [h1, (hs i).2.2]; exact hu i hne

/-! ## the invariant of the main loop -/

/-- The state of a solver that was given `F`, between two iterations of the main loop. -/
structure SOK (F : Form) (nv : Nat) (x : Sol) : Prop where
  nvar : x.s.numVars = nv
  pinv : PInv x.db x.s
  heap : HeapOK x.s
  unl : Unl x.db
  glob : ∃ recs, Glob F x.db x.s recs ∧ x.store = encode recs

/-- The outcome of a function of the solver. -/
def SR (F : Form) (nv : Nat) (P : Sol → Prop) : Res Sol → Prop
  | .ok x => P x
  | .unsat db _ => Certified F nv db.cert
  | _ => True

theorem SR.bind {F : Form} {nv : Nat} {P Q : Sol → Prop} {x : Res Sol} {f : Sol → Res Sol} (h : SR F nv P x) (hf : ∀ y, P y → SR F nv Q (f y)) : SR F nv Q (x.bind f) := by
  cases x with
  | ok y => exact hf y h
  | unsat db s => exact h
  | _ => trivial

/-- The state of a solver at the root level, during simplification; the saved trail may be out of date. -/
structure ROK (F : Form) (nv : Nat) (store : List Lit) (x : DS) : Prop where
  nvar : x.2.numVars = nv
  lim : x.2.lim = []
  heap : HeapOK x.2
  unl : Unl x.1
  glob : ∃ recs, Glob F x.1 x.2 recs ∧ store = encode recs

theorem ROK.step {F : Form} {nv : Nat} {store : List Lit} {x y : DS} (h : ROK F nv store x) {k r : Bool} (t : Tr k r x.1 x.2 y.1 y.2) (hl : y.2.lim = [])
    (hu : Unl x.1 → Unl y.1) : ROK F nv store y := by
  obtain ⟨recs, g, e⟩ := h.glob
  exact ⟨t.sp.numVars.trans h.nvar, hl, t.sp.heap h.heap, hu h.unl, recs, g.step t, e⟩

theorem ROK.sr {F : Form} {nv : Nat} {store : List Lit} {x : DS} (h : ROK F nv store x) {Q : DS → Prop} {r : Bool} {y : Res DS} (hy : RG true r x.1 x.2 id Q y)
    (hq : ∀ z, Q z → z.2.lim = []) {P : Sol → Prop} {f : DS → Res Sol} (hf : ∀ z, ROK F nv store z → SR F nv P (f z)) : SR F nv P (y.bind f) := by
  obtain ⟨recs, g, e⟩ := h.glob
  cases y with
  | ok z => exact hf z (h.step hy.1 (hq z hy.2) (hy.1.unl rfl))
  | unsat db s => exact h.nvar ▸ g.refuted hy
  | _ => trivial

/-- `simplify`, enabled or not. -/
theorem ROK.simplify {F : Form} {nv : Nat} {store : List Lit} {en : Bool} {evo cnf : Nat} {cmds : List ECmd} {oom : Bool} {x : DS} (h : ROK F nv store x)
    {P : Sol → Prop} {f : DS × El → Res Sol} (hf : ∀ z : DS × El, ROK F nv (store ++ z.2.lits) z.1 → SR F nv P (f z)) :
    SR F nv P ((prepare en evo cnf x).bind fun y => (simplify en evo cmds oom y).bind f) := by
  obtain ⟨recs, g, e⟩ := h.glob
  cases en with
  | false =>
    simp only [prepare, Bool.not_false, if_true, Res.bind, Splr.simplify, Bool.false_eq_true, if_false]
    have hp := rg_propagate (k := true) (r := true) g.rinv h.lim
    cases hr : (propagateSandbox x.1 x.2).toRes with
    | ok z =>
      rw [hr] at hp
      by_cases ho : oom = true
      · simp [ho, SR]
      · simp only [ho, Bool.false_eq_true, if_false]
        refine hf _ ?_
        have := h.step (y := z) hp.1 hp.2 (hp.1.unl rfl)
        simpa [El.new] using this
    | unsat db s => rw [hr] at hp; exact h.nvar ▸ g.refuted hp
    | _ => trivial
  | true =>
    cases hp : prepare true evo cnf x with
    | unsat db s => exact absurd hp prepare_not_unsat
    | ok y =>
      obtain ⟨p1, p2, p3, p4⟩ := prepare_spec g.rinv.wf g.dom h.unl hp
      simp only [Res.bind]
      have hE : EOK F x.2 recs y := by
        refine ⟨[], ?_, by rw [p3]; rfl, by rw [p1]; exact h.lim, p4, by rw [p1]; exact id, by rw [p1]; exact id, by rw [p1]⟩
        rw [List.append_nil, p1]
        exact g.step (Tr.flags (r := true) g.rinv h.lim p2)
      have hS := simplify_spec (evo := evo) (cmds := cmds) (oom := oom) hE
      cases hs : Splr.simplify true evo cmds oom y with
      | ok z =>
        rw [hs] at hS
        obtain ⟨recs', g', hb, hl, hu, hh, -, hnv⟩ := hS
        exact hf z ⟨hnv.trans h.nvar, hl, hh h.heap, hu, recs ++ recs', g', by rw [encode_append, e, hb]⟩
      | unsat db s =>
        rw [hs] at hS
        have hS : Certified F x.2.numVars db.cert := hS
        rw [h.nvar] at hS
        exact hS
      | _ => trivial
    | _ => trivial

theorem ROK.sok {F : Form} {nv : Nat} {x : Sol} (h : ROK F nv x.store (x.db, x.s)) : SOK F nv { x with s := x.s.clearSaved } := by
  obtain ⟨recs, g, e⟩ := h.glob
  have t : Tr true true x.db x.s x.db x.s.clearSaved := Tr.clearSaved g.rinv
  exact ⟨t.sp.numVars.trans h.nvar, ⟨g.rinv.wf, t.rinv.inv, savedOK_nil rfl⟩, t.sp.heap h.heap, h.unl, recs, g.step t, e⟩

theorem SOK.dom {F : Form} {nv : Nat} {x : Sol} (h : SOK F nv x) : Dom x.db x.s := by obtain ⟨recs, g, -⟩ := h.glob; exact g.dom

theorem SOK.step {F : Form} {nv : Nat} {x : Sol} (h : SOK F nv x) {r : Bool} {db : Cdb} {s : Stk} (t : Tr true r x.db x.s db s) (hp : PInv db s) :
    SOK F nv { x with db := db, s := s } := by
  obtain ⟨recs, g, e⟩ := h.glob
  exact ⟨t.sp.numVars.trans h.nvar, hp, t.sp.heap h.heap, t.unl rfl h.unl, recs, g.step t, e⟩

theorem SOK.refuted {F : Form} {nv : Nat} {x : Sol} (h : SOK F nv x) {db : Cdb} (hr : Refuted x.db x.s db) : Certified F nv db.cert := by
  obtain ⟨recs, g, -⟩ := h.glob; exact h.nvar ▸ g.refuted hr

theorem segmentElim_spec {F : Form} {nv : Nat} {cfg : Cfg} {o : StageOrc} {x : Sol} (h : ROK F nv x.store (x.db, x.s)) :
    SR F nv (fun y => ROK F nv y.store (y.db, y.s)) (segmentElim cfg o x) := by
  unfold segmentElim
  exact h.simplify (f := fun z => .ok { x with db := z.1.1, s := z.1.2, store := x.store ++ z.2.lits }) fun z hz => hz

theorem stageStep_spec {F : Form} {nv : Nat} {cfg : Cfg} {o : StageOrc} {low : Nat → Bool} {x : Sol} (h : SOK F nv x) : SR F nv (SOK F nv) (stageStep cfg o low x) := by
  unfold stageStep
  split
  · trivial
  obtain ⟨recs, g, e⟩ := h.glob
  have t1 : Tr true false x.db x.s x.db (x.s.restart low) := Tr.cancelUntil h.pinv.rinv low 0
  have h1 : ROK F nv x.store (x.db, x.s.restart low) := ⟨t1.sp.numVars.trans h.nvar, cancelUntil_lim0, t1.sp.heap h.heap, h.unl, recs, g.step t1, e⟩
  have g1 := g.step t1
  refine h1.sr (r := true) (rg_clearAsserted g1.rinv cancelUntil_lim0 g1.dom) (fun _ h => h) fun x1 h1 => ?_
  obtain ⟨recs1, g1, e1⟩ := h1.glob
  unfold Cdb.reduceRes
  cases hr : x1.1.reduce x1.2.level o.victims with
  | none => trivial
  | some db2 =>
    obtain ⟨t2, u2⟩ := reduce_tr (r := true) g1.rinv h1.lim hr
    have h2 : ROK F nv x.store (db2, x1.2) := h1.step t2 h1.lim u2
    simp only [Res.bind]
    have key : SR F nv (fun y => ROK F nv y.store (y.db, y.s)) (if o.cycle then
          (vivify o.targets (db2, x1.2)).bind fun x3 =>
            let y : Sol := { x with db := x3.1, s := x3.2 }
            if o.segment then segmentElim cfg o y else .ok y
        else .ok { x with db := db2, s := x1.2 }) := by
      split
      · obtain ⟨recs2, g2, -⟩ := h2.glob
        refine h2.sr (r := true) (rg_vivify g2.rinv h2.lim g2.dom) (fun _ h => h) fun x3 h3 => ?_
        simp only []
        split
        · exact segmentElim_spec h3
        · exact h3
      · exact h2
    exact key.bind (Q := SOK F nv) fun y hy => hy.sok

theorem refuted_conf {db : Cdb} {s : Stk} {db1 : Cdb} {s1 : Stk} {k r : Bool} (t : Tr k r db s db1 s1) (h : ∀ D, ¬ Mod db1 s1 D) : Refuted db s db1 :=
  Refuted.after t (Refuted.now rfl fun D hD => h D hD.1)

/-- One iteration of the main loop. -/
theorem searchStep_spec {F : Form} {nv : Nat} {cfg : Cfg} {o : Orc} {x : Sol} (h : SOK F nv x) : SR F nv (SOK F nv) (searchStep cfg o x) := by
  unfold searchStep
  cases hd : decideStep o x.s with
  | none => trivial
  | some s =>
    obtain ⟨p1, t1, -⟩ := decideStep_spec (k := true) (r := false) h.pinv h.dom hd
    simp only []
    have hg := propagate_good (q := o.q) p1
    cases hp : propagate o.q x.db s with
    | ok db s1 =>
      rw [hp] at hg
      exact h.step (t1.trans (hg.trn p1.rinv)) (hg.all p1).1
    | panic => trivial
    | fuel => trivial
    | conflict db s1 l r =>
      rw [hp] at hg
      obtain ⟨st, hc⟩ := hg
      have p2 := (st.all p1).1
      have t2 : Tr true false x.db x.s db s1 := t1.trans (st.trn p1.rinv)
      simp only []
      split
      · rename_i h0
        exact h.refuted (refuted_conf t2 fun D hD => conf_root p2.inv (List.length_eq_zero_iff.1 h0) hc hD)
      · rename_i h0
        have hh := handleConflict_spec p2 (low := o.low) (rr := o.rr) (drift := o.drift) (by omega) hc
        cases hr : handleConflict db s1 o.low o.rr o.drift l r with
        | panic => trivial
        | unsat db2 s2 =>
          rw [hr] at hh
          obtain ⟨rfl, rfl, hm⟩ := hh
          exact h.refuted (refuted_conf t2 hm)
        | ok db2 s2 =>
          rw [hr] at hh
          obtain ⟨v, lv, seen, -, -, hok⟩ := hh
          have t3 := handle_tr p2 (t2.dom h.dom) (by omega) hc hr
          have h3 : SOK F nv { x with db := db2, s := s2 } := h.step (t2.trans t3) hok.inv
          simp only []
          unfold afterConflict
          split
          · exact stageStep_spec h3
          · split
            · exact h3.step (Tr.cancelUntil hok.inv.rinv o.low2 0) (hok.inv.cancelUntil o.low2 0)
            · exact h3

theorem search_spec {F : Form} {nv : Nat} {cfg : Cfg} : ∀ {os : List Orc} {x : Sol}, SOK F nv x → SR F nv (SOK F nv) (search cfg os x)
  | [], _, h => h
  | o :: os, x, h => by
    unfold search
    split
    · exact (searchStep_spec h).bind fun y hy => search_spec hy
    · exact h

end Splr
