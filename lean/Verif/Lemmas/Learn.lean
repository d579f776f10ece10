import Verif.Lemmas.Minimize
/-! The learnt clause and `handle_conflict`. -/
namespace Splr
open Stk

theorem Inv.level_le {db : Cdb} {s : Stk} (h : Inv db s) {v : Nat} (ha : s.assign v ≠ none) : s.level v ≤ s.dl := by
  by_cases hv : v ∈ s.trail.map Lit.var
  · obtain ⟨l, hm, rfl⟩ := List.mem_map.1 hv
    obtain ⟨pre, post, e⟩ := List.append_of_mem hm
    rw [h.lev _ _ _ e]; exact List.countP_le_length
  · rw [h.arch v ha hv]; exact Nat.zero_le _

theorem conf_sign {db : Cdb} {s : Stk} {l : Lit} {r : Reason} (h : ConfOK db s l r) : SignOK db s r ∧ s.tr l.neg ∧
    ∀ q ∈ antecedents db r, s.assign q.var ≠ none := by
  cases r with
  | none => exact h.elim
  | decision k => exact h.elim
  | binary m => exact ⟨h.2.2, h.2.1, by simp [antecedents]; exact tr_assigned h.2.2⟩
  | impl cid =>
    obtain ⟨⟨rest, e⟩, hf⟩ := h
    refine ⟨fun q hq => hf q (List.mem_of_mem_drop hq), hf l (by rw [e]; simp), fun q hq => ?_⟩
    have := tr_assigned (hf q (List.mem_of_mem_drop hq)); simpa using this

theorem conf_false {db : Cdb} {s : Stk} {D : Lit → Prop} (hb : Mod db s D) {l : Lit} {r : Reason} (h : ConfOK db s l r)
    (hl : Agree s D l.var) (ha : ∀ q ∈ antecedents db r, Agree s D q.var) : False := by
  have hlf : D l.neg := hl.not_sat (conf_sign h).2.1
  cases r with
  | none => exact h.elim
  | decision k => exact h.elim
  | binary m =>
    obtain ⟨⟨i, hc⟩, -, hm⟩ := h
    have hms := (ha m (by simp [antecedents])).sat hm
    obtain ⟨x, hx, hxs⟩ := hb.conf i (by rcases hc with e | e <;> rw [e] <;> simp)
    have : x = l ∨ x = m.neg := by rcases hc with e | e <;> rw [e] at hx <;> simp at hx <;> tauto
    rcases this with rfl | rfl
    · exact hxs hlf
    · simp at hxs; exact hxs hms
  | impl cid =>
    obtain ⟨⟨rest, e⟩, hf⟩ := h
    obtain ⟨x, hx, hxs⟩ := hb.conf cid (by rw [e]; simp)
    have hxf := hf x hx
    rw [e] at hx
    rcases List.mem_cons.1 hx with rfl | hx
    · exact hxs hlf
    · exact hxs ((ha x (by simp only [antecedents]; rw [e]; simpa using hx)).not_sat hxf)

/-- The start of the analysis. -/
def ana0 (db : Cdb) (s : Stk) (l : Lit) (r : Reason) : Ana :=
  (Ana.add s s.dl false { seen := fun _ => false, rest := [], cnt := 0 } l).expand db s s.dl r

theorem ana0_spec {db : Cdb} {s : Stk} (hi : Inv db s) (hd : 0 < s.dl) {l : Lit} {r : Reason} (hc : ConfOK db s l r) :
    SInv s s.dl s.trail.reverse (ana0 db s l r) ∧ (ana0 db s l r).seen l.var = true ∧
    (∀ q ∈ antecedents db r, s.level q.var = 0 ∨ (ana0 db s l r).seen q.var = true) ∧
    ∀ D, Mod db s D → (∀ x ∈ (ana0 db s l r).rest, Agree s D x.var) →
      (∀ t ∈ s.trail.reverse, (ana0 db s l r).seen t.var = true → s.level t.var = s.dl → Agree s D t.var) → False := by
  have hn : (s.trail.reverse.map Lit.var).Nodup := by rw [List.map_reverse, List.nodup_reverse]; exact hi.nd
  have h0 : SInv s s.dl s.trail.reverse { seen := fun _ => false, rest := [], cnt := 0 } := by
    refine ⟨by simp, by simp, by simp, ?_⟩
    have : (s.trail.reverse).countP (lvSeen s s.dl fun _ => false) = 0 := by
      rw [List.countP_eq_zero]; intro x _; simp [lvSeen]
    simp only []; rw [this]; rfl
  have hmem : ∀ v, s.assign v ≠ none → s.level v = s.dl → v ∈ s.trail.reverse.map Lit.var := by
    intro v ha hl
    by_contra hv
    rw [List.map_reverse, List.mem_reverse] at hv
    have := hi.arch v ha hv; omega
  obtain ⟨hs1, hs2, hs3⟩ := conf_sign hc
  obtain ⟨i1, -, -, c1⟩ := add_spec hn (sk := false) h0 hs2 (hmem l.var (by simpa using tr_assigned hs2))
  have c1 : (Ana.add s s.dl false { seen := fun _ => false, rest := [], cnt := 0 } l).seen l.var = true := by simpa using c1
  obtain ⟨x1, x2, x3, x4⟩ := expand_spec hn i1 (r := r) (fun q hq => ⟨hs3 q hq, hmem _ (hs3 q hq)⟩) hs1
  refine ⟨x1, x3 _ c1, ?_, ?_⟩
  · intro q hq
    cases r with
    | none => simp [antecedents] at hq
    | decision k => simp [antecedents] at hq
    | binary m =>
      simp only [antecedents, List.mem_singleton] at hq; subst hq
      obtain ⟨-, -, -, c2⟩ := add_spec hn (sk := false) i1 (q := q.neg) (by simpa [SignOK] using hs1)
        (by simpa using hmem q.var (hs3 q (by simp [antecedents])))
      right; simpa [ana0, Ana.expand] using c2
    | impl cid =>
      obtain ⟨-, -, -, c2⟩ := foldl_add_spec hn (qs := (db.clause cid).lits.drop 1) i1
        (fun x hx => ⟨hs1 x hx, hmem _ (hs3 x hx)⟩)
      exact c2 q hq
  · intro b hb h1 h2
    have hat := x4 b hb h1 h2
    refine conf_false hb hc ?_ hat
    have hseen := x3 _ c1
    rcases x1.cover _ hseen with ⟨e, hm⟩ | hm
    · obtain ⟨t, ht, et⟩ := List.mem_map.1 hm
      have := h2 t ht (by rw [et]; exact hseen) (by rw [et]; exact e)
      rw [et] at this; exact this
    · obtain ⟨t, ht, et⟩ := List.mem_map.1 hm
      have := h1 t ht; rw [et] at this; exact this

/-- A clause contains the variable. -/
def InCls (db : Cdb) (v : Nat) : Prop := ∃ i, ∃ y ∈ (db.clause i).lits, y.var = v

/-- The marked variables and the literals collected occur in clauses. -/
def Ana.In (db : Cdb) (a : Ana) : Prop := (∀ v, a.seen v = true → InCls db v) ∧ ∀ x ∈ a.rest, InCls db x.var

theorem Ana.In.add {db : Cdb} {s : Stk} {d : Nat} {sk : Bool} {a : Ana} {q : Lit} (h : a.In db) (hq : InCls db q.var) : (a.add s d sk q).In db := by
  have hs : ∀ v, upd a.seen q.var true v = true → InCls db v := by
    intro v hv
    simp only [upd_apply] at hv
    split at hv
    · rename_i e; rw [e]; exact hq
    · exact h.1 v hv
  unfold Ana.add
  split
  · exact h
  split
  · exact h
  split
  · exact ⟨hs, h.2⟩
  · refine ⟨hs, fun x hx => ?_⟩
    rcases List.mem_append.1 hx with hx | hx
    · exact h.2 x hx
    · simp at hx; rw [hx]; exact hq

theorem Ana.In.fold {db : Cdb} {s : Stk} {d : Nat} : ∀ {qs : Cls} {a : Ana}, a.In db → (∀ q ∈ qs, InCls db q.var) → (qs.foldl (Ana.add s d true) a).In db
  | [], _, h, _ => h
  | q :: _, _, h, hq => by
    rw [List.foldl_cons]
    exact Ana.In.fold (h.add (hq q (by simp))) fun x hx => hq x (by simp [hx])

/-- The literals of the reason occur in clauses. -/
def ReasonIn (db : Cdb) : Reason → Prop
  | .binary m => InCls db m.var
  | _ => True

theorem Ana.In.expand {db : Cdb} {s : Stk} {d : Nat} {a : Ana} {r : Reason} (h : a.In db) (hr : ReasonIn db r) : (a.expand db s d r).In db := by
  cases r with
  | binary m => exact h.add (q := m.neg) (by rw [Lit.neg_var]; exact hr)
  | impl cid => exact h.fold fun q hq => ⟨cid, q, List.mem_of_mem_drop hq, rfl⟩
  | _ => exact h

theorem BinC.inCls {db : Cdb} {a b : Lit} (h : BinC db a b) : InCls db a.var ∧ InCls db b.var := by
  obtain ⟨i, e | e⟩ := h
  · exact ⟨⟨i, a, by rw [e]; simp, rfl⟩, i, b, by rw [e]; simp, rfl⟩
  · exact ⟨⟨i, a, by rw [e]; simp, rfl⟩, i, b, by rw [e]; simp, rfl⟩

theorem loop_in {db : Cdb} {s : Stk} (hi : Inv db s) {d : Nat} : ∀ {ts : List Lit} {a : Ana} {p : Lit} {a' : Ana} {post : List Lit},
    s.trail = ts.reverse ++ post → a.In db → Ana.loop db s d ts a = some (p, a') → InCls db p.var ∧ a'.In db
  | [], a, p, a', post, _, _, he => by simp [Ana.loop] at he
  | t :: ts, a, p, a', post, htr, ha, he => by
    have htr' : s.trail = ts.reverse ++ t :: post := by rw [htr]; simp
    unfold Ana.loop at he
    split at he
    · rename_i hc
      simp only [Bool.and_eq_true] at hc
      have h1 : Ana.In db { a with seen := upd a.seen t.var false, cnt := a.cnt - 1 } := by
        refine ⟨fun v hv => ?_, ha.2⟩
        simp only [upd_apply] at hv
        split at hv
        · simp at hv
        · exact ha.1 v hv
      dsimp only at he
      split at he
      · simp only [Option.some.injEq, Prod.mk.injEq] at he
        obtain ⟨rfl, rfl⟩ := he
        exact ⟨ha.1 _ hc.1, h1⟩
      · refine loop_in hi htr' (h1.expand ?_) he
        have := hi.rs _ _ _ htr'
        unfold ReasonOK at this
        cases hrl : s.reason t.var with
        | binary m =>
          rw [hrl] at this
          exact (BinC.inCls this.1).2
        | _ => trivial
    · exact loop_in hi htr' ha he

theorem ana0_in {db : Cdb} {s : Stk} {l : Lit} {r : Reason} (hc : ConfOK db s l r) : (ana0 db s l r).In db := by
  have h0 : Ana.In db { seen := fun _ => false, rest := [], cnt := 0 } := ⟨by simp, by simp⟩
  unfold ana0
  cases r with
  | none => exact hc.elim
  | decision k => exact hc.elim
  | binary m => exact (h0.add (BinC.inCls hc.1).1).expand (BinC.inCls hc.1).2
  | impl cid =>
    obtain ⟨⟨rest, e⟩, -⟩ := hc
    exact (h0.add ⟨cid, l, by rw [e]; simp, rfl⟩).expand trivial

/-- What `conflict_analyze` promises about the clause `v` and the level `lv` it returns. -/
structure LearntOK (db : Cdb) (s : Stk) (v : Cls) (lv : Nat) : Prop where
  implied : ∀ D, Mod db s D → (∀ x ∈ v, D x.neg) → False
  nd : (v.map Lit.var).Nodup
  asserting : ∃ l0 rest, v = l0 :: rest ∧ s.tr l0.neg ∧ s.level l0.var = s.dl ∧
    (∀ x ∈ rest, s.tr x.neg ∧ s.level x.var < s.dl ∧ s.level x.var ≤ lv) ∧
    (rest = [] → lv = 0) ∧ (∀ x xs, rest = x :: xs → s.level x.var = lv)
  held : ∀ x ∈ v, InCls db x.var

theorem conflictAnalyze_spec {db : Cdb} {s : Stk} (hw : db.WF) (hi : Inv db s) (hd : 0 < s.dl) {l : Lit} {r : Reason} (hc : ConfOK db s l r)
    {v : Cls} {lv : Nat} {seen : Nat → Bool} (h : conflictAnalyze db s l r = some (v, lv, seen)) :
    LearntOK db s v lv ∧ ∀ x, seen x = false := by
  unfold conflictAnalyze at h
  simp only [] at h
  split at h
  · simp at h
  rename_i p a e
  obtain ⟨i1, -, -, i2⟩ := ana0_spec hi hd hc
  obtain ⟨p1, p2, p3, p4, p5, p6⟩ := loop_spec hi hd (post := []) (by simp) i1 i2 e
  obtain ⟨p7, p8⟩ := loop_in hi (post := []) (by simp) (ana0_in hc) e
  unfold minimizeLearnt at h
  simp only [] at h
  split at h
  · simp at h
  rename_i kept seen1 clear er
  obtain ⟨r1, r2, r3, r4, r5⟩ := retainLoop_spec (P := fun _ => False) (by
    intro x hx; exact .inr (.inl ((p5 x).1 hx))) er
  have hpv : p.var ∉ a.rest.map Lit.var := by
    intro hm; obtain ⟨x, hx, ex⟩ := List.mem_map.1 hm
    exact (p3 x hx).2 (by rw [ex]; exact p2)
  have hndk : ((p.neg :: kept).map Lit.var).Nodup := by
    simp only [List.map_cons, List.nodup_cons, Lit.neg_var]
    exact ⟨fun hm => hpv ((r5.map Lit.var).subset hm), p4.sublist (r5.map _)⟩
  -- falsifying the kept literals is contradictory
  have himp : ∀ D, Mod db s D → (∀ x ∈ p.neg :: kept, D x.neg) → False := by
    intro b hb hf
    have hag : ∀ x ∈ p.neg :: kept, s.tr x.neg → Agree s b x.var := by
      intro x hx ht
      have hn := hf x hx
      have : Agree s b x.neg.var := agree_of_sat ht hn
      exact this
    have hall := agree_all hi (seen := seen1) (kept := kept.map Lit.var) (fun x hx => by
      rcases r4 x hx with h | h | h
      · exact h.elim
      · exact .inl h
      · exact .inr h) hb (by
      intro x hx; obtain ⟨y, hy, rfl⟩ := List.mem_map.1 hx
      exact hag y (by simp [hy]) (p3 y (r5.subset hy)).1)
    refine p6 b hb (fun x hx => hall _ ?_ (r1 _ ((p5 _).2 (List.mem_map_of_mem hx)))) ?_
    · have := tr_assigned (p3 x hx).1; simpa using this
    · have := hag p.neg (by simp) (by simpa using p1); simpa using this
  -- the binary minimisation
  have hbi : ∃ rest', (if 2 < (p.neg :: kept).length then biMinimize db s (p.neg :: kept) else p.neg :: kept) = p.neg :: rest' ∧
      rest'.Sublist kept ∧ ∀ D, Mod db s D → (∀ x ∈ p.neg :: rest', D x.neg) → ∀ x ∈ kept, D x.neg := by
    split
    · exact biMinimize_spec hw hndk (fun x hx => (p3 x (r5.subset hx)).1)
    · exact ⟨kept, rfl, .refl _, fun b _ h x hx => h x (by simp [hx])⟩
  obtain ⟨rest', eb, sb, fb⟩ := hbi
  rw [eb] at h
  obtain ⟨rest2, ep, pp, pl1, pl2, pl3⟩ := placeSecond_spec (s := s) (l0 := p.neg) (rest := rest')
  simp only [Option.some.injEq, Prod.mk.injEq] at h
  obtain ⟨h1, h2, h3⟩ := h
  rw [ep] at h1
  have hsub := sb.trans r5
  refine ⟨⟨?_, ?_, ⟨p.neg, rest2, h1.symm, by simpa using p1, p2, ?_, ?_, ?_⟩, ?_⟩, ?_⟩
  · intro b hb hcon
    have hnone : ∀ x ∈ p.neg :: rest', b x.neg := by
      intro x hx
      apply hcon
      rw [← h1]
      rcases List.mem_cons.1 hx with rfl | hx
      · simp
      · rw [List.mem_cons]; exact .inr (pp.mem_iff.2 hx)
    have := fb b hb hnone
    refine himp b hb fun x hx => ?_
    rcases List.mem_cons.1 hx with rfl | hx
    · exact hnone _ (by simp)
    · exact this x hx
  · rw [← h1]
    have : ((p.neg :: rest').map Lit.var).Nodup := hndk.sublist ((sb.cons_cons _).map _)
    exact ((pp.cons _).map Lit.var).nodup_iff.2 this
  · intro x hx
    have hx' := pp.mem_iff.1 hx
    have h3' := p3 x (hsub.subset hx')
    refine ⟨h3'.1, ?_, ?_⟩
    · have := Inv.level_le hi (v := x.var) (by simpa using tr_assigned h3'.1)
      have := h3'.2; omega
    · rw [← h2]; exact pl1 x hx'
  · intro e0
    rw [← h2]; apply pl3
    subst e0; exact List.nil_perm.1 pp
  · intro x xs e0; rw [← h2]; exact pl2 x xs e0
  · intro x hx
    rw [← h1] at hx
    rcases List.mem_cons.1 hx with rfl | hx
    · simpa using p7
    · exact p8.2 x (hsub.subset (pp.mem_iff.1 hx))
  · intro x; rw [← h3]; simp only []
    split
    · rfl
    · rename_i hx
      by_contra hs
      rw [Bool.not_eq_false] at hs
      rcases r3 x hs with h | h
      · apply hx
        obtain ⟨y, hy, rfl⟩ := List.mem_map.1 ((p5 x).1 h)
        exact List.mem_map_of_mem (r2 y (by simp [hy]))
      · exact hx h

/-! ## no panic -/

end Splr
