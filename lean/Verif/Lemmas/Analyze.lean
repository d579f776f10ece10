import Verif.Model.Conflict
import Verif.Lemmas.Propagate
/-! Conflict analysis: the learnt clause before minimisation is implied. -/
namespace Splr
open Stk

/-- `D` is a set of literals closed under unit propagation with the clauses of the database, without a conflict, and containing
all root-level facts. The literals satisfied by a model form such a set (`Mod.of_asg`). -/
structure Mod (db : Cdb) (s : Stk) (D : Lit → Prop) : Prop where
  cl : ∀ i, ∀ x ∈ (db.clause i).lits, (∀ y ∈ (db.clause i).lits, y ≠ x → D y.neg) → D x
  conf : ∀ i, (db.clause i).lits ≠ [] → ∃ y ∈ (db.clause i).lits, ¬ D y.neg
  root : ∀ l, s.tr l → s.level l.var = 0 → D l

theorem Mod.of_asg {db : Cdb} {s : Stk} {b : Asg} (h : ∀ i, (db.clause i).lits ≠ [] → Cls.sat b (db.clause i).lits)
    (hr : ∀ l, s.tr l → s.level l.var = 0 → l.sat b) : Mod db s (fun l => l.sat b) := by
  refine ⟨fun i x hx hy => ?_, fun i hi => ?_, hr⟩
  · obtain ⟨z, hz, hs⟩ := h i (List.ne_nil_of_mem hx)
    by_cases e : z = x
    · subst e; exact hs
    · have := hy z hz e; simp at this; exact absurd hs this
  · obtain ⟨z, hz, hs⟩ := h i hi
    exact ⟨z, hz, by simpa using hs⟩

/-- `D` contains the literal of `v` that is true on the stack. -/
def Agree (s : Stk) (D : Lit → Prop) (v : Nat) : Prop := ∀ x, s.assign v = some x → D ⟨v, x⟩

theorem Agree.sat {s : Stk} {D : Lit → Prop} {m : Lit} (h : Agree s D m.var) (ht : s.tr m) : D m := h m.pos ht

theorem agree_of_sat {s : Stk} {D : Lit → Prop} {m : Lit} (ht : s.tr m) (h : D m) : Agree s D m.var := by
  intro x hx; unfold tr at ht; rw [ht] at hx; cases hx; exact h

theorem Agree.not_sat {s : Stk} {D : Lit → Prop} {m : Lit} (h : Agree s D m.var) (ht : s.tr m.neg) : D m.neg := by
  have : Agree s D m.neg.var := h
  exact this.sat ht

theorem Mod.agree_root {db : Cdb} {s : Stk} {D : Lit → Prop} (h : Mod db s D) {v : Nat} (ha : s.assign v ≠ none) (hl : s.level v = 0) :
    Agree s D v := by
  obtain ⟨x, hx⟩ := tr_of_assign ha
  exact agree_of_sat hx (h.root _ hx hl)

/-- A clause reason forces its literal once `D` agrees on the antecedents. -/
theorem reason_forces {db : Cdb} {s : Stk} {D : Lit → Prop} (h : Mod db s D) {pre : List Lit} {t : Lit} (hr : ReasonOK db s pre t)
    (ht : s.tr t) (hi : (s.reason t.var).implied = true) (ha : ∀ q ∈ antecedents db (s.reason t.var), Agree s D q.var) :
    Agree s D t.var := by
  refine agree_of_sat ht ?_
  unfold ReasonOK at hr
  cases hrl : s.reason t.var <;> rw [hrl] at hr hi ha <;> simp only [Reason.implied, antecedents] at hr hi ha
  · simp at hi
  · rename_i m
    obtain ⟨⟨i, hc⟩, hb⟩ := hr
    have hm := (ha m (by simp)).sat hb.1
    refine h.cl i t (by rcases hc with e | e <;> rw [e] <;> simp) fun y hy hne => ?_
    have : y = t ∨ y = m.neg := by rcases hc with e | e <;> rw [e] at hy <;> simp at hy <;> tauto
    rcases this with rfl | rfl
    · exact absurd rfl hne
    · simpa using hm
  · rename_i cid
    obtain ⟨rest, e, hb⟩ := hr
    refine h.cl cid t (by rw [e]; simp) fun y hy hne => ?_
    rw [e] at hy
    rcases List.mem_cons.1 hy with rfl | hy
    · exact absurd rfl hne
    · exact (ha y (by rw [e]; simpa using hy)).not_sat (hb y hy).1

/-- The antecedents of a reason are assigned, and lie on the trail before the literal or are root-level. -/
theorem antecedent_before {db : Cdb} {s : Stk} {pre : List Lit} {t : Lit} (hr : ReasonOK db s pre t)
    {q : Lit} (hq : q ∈ antecedents db (s.reason t.var)) : ∃ m, m.var = q.var ∧ s.Before pre m := by
  unfold ReasonOK at hr
  cases hrl : s.reason t.var <;> rw [hrl] at hr hq <;> simp only [antecedents] at hr hq
  · simp at hq
  · simp at hq; subst hq; exact ⟨_, rfl, hr.2⟩
  · obtain ⟨rest, e, hb⟩ := hr
    rw [e] at hq; simp at hq
    exact ⟨q.neg, rfl, hb q hq⟩

/-! ## the loop -/

def lvSeen (s : Stk) (d : Nat) (seen : Nat → Bool) (t : Lit) : Bool := seen t.var && s.level t.var == d

/-- The structural part of the loop invariant; `ts` is the trail from the current index downwards. -/
structure SInv (s : Stk) (d : Nat) (ts : List Lit) (a : Ana) : Prop where
  rest : ∀ l ∈ a.rest, s.tr l.neg ∧ s.level l.var ≠ d ∧ a.seen l.var = true
  nd : (a.rest.map Lit.var).Nodup
  cover : ∀ v, a.seen v = true → (s.level v = d ∧ v ∈ ts.map Lit.var) ∨ v ∈ a.rest.map Lit.var
  cnt : a.cnt = (ts.countP (lvSeen s d a.seen) : Nat)

theorem countP_add {s : Stk} {d : Nat} {seen : Nat → Bool} {v : Nat} (hs : seen v = false) (hl : s.level v = d) :
    ∀ {ts : List Lit}, (ts.map Lit.var).Nodup → v ∈ ts.map Lit.var →
      ts.countP (lvSeen s d (upd seen v true)) = ts.countP (lvSeen s d seen) + 1
  | [], _, h => by simp at h
  | t :: ts, hn, h => by
    simp only [List.map_cons, List.nodup_cons] at hn
    rw [List.countP_cons, List.countP_cons]
    by_cases e : t.var = v
    · have h1 : lvSeen s d (upd seen v true) t = true := by simp [lvSeen, upd, e, hl]
      have h2 : lvSeen s d seen t = false := by simp [lvSeen, e, hs]
      rw [h1, h2]
      have : ts.countP (lvSeen s d (upd seen v true)) = ts.countP (lvSeen s d seen) := by
        apply List.countP_congr
        intro x hx
        have : x.var ≠ v := fun e2 => hn.1 (by rw [e, ← e2]; exact List.mem_map_of_mem hx)
        simp [lvSeen, upd, this]
      simp [this]
    · have : lvSeen s d (upd seen v true) t = lvSeen s d seen t := by simp [lvSeen, upd, e]
      rw [this, countP_add hs hl hn.2 (by simpa [Ne.symm e] using h)]; omega

theorem add_spec {s : Stk} {d : Nat} {ts : List Lit} (hn : (ts.map Lit.var).Nodup) {sk : Bool} {a : Ana} (h : SInv s d ts a) {q : Lit}
    (hf : s.tr q.neg) (hq : s.level q.var = d → q.var ∈ ts.map Lit.var) :
    SInv s d ts (a.add s d sk q) ∧ (∀ v, a.seen v = true → (a.add s d sk q).seen v = true) ∧
    (∀ l ∈ a.rest, l ∈ (a.add s d sk q).rest) ∧ ((sk = true ∧ s.level q.var = 0) ∨ (a.add s d sk q).seen q.var = true) := by
  unfold Ana.add
  split
  · rename_i e; exact ⟨h, fun _ h => h, fun _ h => h, .inr e⟩
  rename_i hs
  have hs : a.seen q.var = false := by simpa using hs
  split
  · rename_i e; simp at e; exact ⟨h, fun _ h => h, fun _ h => h, .inl e⟩
  have mono : ∀ v, a.seen v = true → upd a.seen q.var true v = true := by
    intro v hv; simp only [upd_apply]; split <;> simp [hv]
  split
  · rename_i e
    refine ⟨⟨fun l hl => ⟨(h.rest l hl).1, (h.rest l hl).2.1, mono _ (h.rest l hl).2.2⟩, h.nd, ?_, ?_⟩, mono, fun _ h => h,
      .inr (by simp [upd])⟩
    · intro v hv
      simp only [upd_apply] at hv; split at hv
      · rename_i e2; subst e2; exact .inl ⟨e, hq e⟩
      · exact h.cover v hv
    · simp only []; rw [countP_add hs e hn (hq e), h.cnt]; simp
  · rename_i e
    refine ⟨⟨?_, ?_, ?_, ?_⟩, mono, fun l hl => by simp [hl], .inr (by simp [upd])⟩
    · intro l hl; simp only [] at hl ⊢
      rcases List.mem_append.1 hl with hl | hl
      · exact ⟨(h.rest l hl).1, (h.rest l hl).2.1, mono _ (h.rest l hl).2.2⟩
      · simp at hl; subst hl; exact ⟨hf, e, by simp [upd]⟩
    · simp only [List.map_append, List.map_cons, List.map_nil]
      rw [List.nodup_append]
      refine ⟨h.nd, by simp, fun x hx y hy hxy => ?_⟩
      simp at hy; subst hy; subst hxy
      obtain ⟨l, hl, e2⟩ := List.mem_map.1 hx
      have := (h.rest l hl).2.2; rw [e2, hs] at this; simp at this
    · intro v hv; simp only [] at hv ⊢
      simp only [upd_apply] at hv; split at hv
      · rename_i e2; right; subst e2; simp
      · rcases h.cover v hv with h1 | h1
        · exact .inl h1
        · right; simp only [List.map_append, List.mem_append]; exact .inl h1
    · simp only []; rw [h.cnt]
      congr 1
      apply List.countP_congr
      intro x hx
      by_cases e2 : x.var = q.var
      · have : s.level x.var ≠ d := by rw [e2]; exact e
        simp [lvSeen, this]
      · simp [lvSeen, upd, e2]

theorem foldl_add_spec {s : Stk} {d : Nat} {ts : List Lit} (hn : (ts.map Lit.var).Nodup) : ∀ {qs : Cls} {a : Ana}, SInv s d ts a →
    (∀ q ∈ qs, s.tr q.neg ∧ (s.level q.var = d → q.var ∈ ts.map Lit.var)) →
    SInv s d ts (qs.foldl (Ana.add s d true) a) ∧ (∀ v, a.seen v = true → (qs.foldl (Ana.add s d true) a).seen v = true) ∧
    (∀ l ∈ a.rest, l ∈ (qs.foldl (Ana.add s d true) a).rest) ∧
    ∀ q ∈ qs, s.level q.var = 0 ∨ (qs.foldl (Ana.add s d true) a).seen q.var = true
  | [], a, h, _ => ⟨h, fun _ h => h, fun _ h => h, by simp⟩
  | q :: qs, a, h, hq => by
    obtain ⟨i1, m1, r1, c1⟩ := add_spec hn (sk := true) h (hq q (by simp)).1 (hq q (by simp)).2
    obtain ⟨i2, m2, r2, c2⟩ := foldl_add_spec hn (qs := qs) i1 (fun x hx => hq x (by simp [hx]))
    refine ⟨i2, fun v hv => m2 v (m1 v hv), fun l hl => r2 l (r1 l hl), ?_⟩
    intro x hx
    rcases List.mem_cons.1 hx with rfl | hx
    · rcases c1 with c1 | c1
      · exact .inl c1.2
      · exact .inr (m2 _ c1)
    · exact c2 x hx

/-- The antecedents of the reason have the values that make it force. -/
def SignOK (db : Cdb) (s : Stk) : Reason → Prop
  | .binary m => s.tr m
  | .impl cid => ∀ q ∈ (db.clause cid).lits.drop 1, s.tr q.neg
  | _ => True

/-- After expanding a reason, agreeing on the new state gives agreement on the antecedents. -/
theorem expand_spec {db : Cdb} {s : Stk} {d : Nat} {ts : List Lit} (hn : (ts.map Lit.var).Nodup) {a : Ana} (h : SInv s d ts a) {r : Reason}
    (hq : ∀ q ∈ antecedents db r, s.assign q.var ≠ none ∧ (s.level q.var = d → q.var ∈ ts.map Lit.var))
    (hsign : SignOK db s r) :
    SInv s d ts (a.expand db s d r) ∧ (∀ l ∈ a.rest, l ∈ (a.expand db s d r).rest) ∧
    (∀ v, a.seen v = true → (a.expand db s d r).seen v = true) ∧
    ∀ D, Mod db s D → (∀ l ∈ (a.expand db s d r).rest, Agree s D l.var) →
      (∀ t ∈ ts, (a.expand db s d r).seen t.var = true → s.level t.var = d → Agree s D t.var) →
      ∀ q ∈ antecedents db r, Agree s D q.var := by
  have key : ∀ a' : Ana, SInv s d ts a' → ∀ D, (∀ l ∈ a'.rest, Agree s D l.var) →
      (∀ t ∈ ts, a'.seen t.var = true → s.level t.var = d → Agree s D t.var) → ∀ v, a'.seen v = true → Agree s D v := by
    intro a' ha b h1 h2 v hv
    rcases ha.cover v hv with ⟨e, hm⟩ | hm
    · obtain ⟨t, ht, rfl⟩ := List.mem_map.1 hm; exact h2 t ht hv e
    · obtain ⟨l, hl, rfl⟩ := List.mem_map.1 hm; exact h1 l hl
  cases r with
  | none => exact ⟨h, fun _ h => h, fun _ h => h, fun b _ _ _ q hq => by simp [antecedents] at hq⟩
  | decision k => exact ⟨h, fun _ h => h, fun _ h => h, fun b _ _ _ q hq => by simp [antecedents] at hq⟩
  | binary m =>
    obtain ⟨i1, m1, r1, c1⟩ := add_spec hn (sk := false) h (q := m.neg) (by simpa [SignOK] using hsign) (by
      simpa using (hq m (by simp [antecedents])).2)
    refine ⟨i1, r1, m1, fun b hb h1 h2 q hqm => ?_⟩
    simp [antecedents] at hqm; subst hqm
    have : (a.add s d false q.neg).seen q.var = true := by simpa using c1
    exact key _ i1 b h1 h2 _ this
  | impl cid =>
    obtain ⟨i1, m1, r1, c1⟩ := foldl_add_spec hn (qs := (db.clause cid).lits.drop 1) h (fun q hqm => ⟨hsign q hqm, (hq q hqm).2⟩)
    refine ⟨i1, r1, m1, fun b hb h1 h2 q hqm => ?_⟩
    rcases c1 q hqm with e | e
    · exact hb.agree_root (hq q hqm).1 e
    · exact key _ i1 b h1 h2 _ e

theorem sign_of_reason {db : Cdb} {s : Stk} {pre : List Lit} {t : Lit} (hr : ReasonOK db s pre t) :
    SignOK db s (s.reason t.var) := by
  unfold SignOK
  unfold ReasonOK at hr
  cases hrl : s.reason t.var <;> rw [hrl] at hr <;> simp only [] at hr ⊢
  · exact hr.2.1
  · obtain ⟨rest, e, hb⟩ := hr
    intro q hq; rw [e] at hq; simp at hq; exact (hb q hq).1

/-- A literal of the conflict level is met: what holds after turning off its flag. -/
theorem hit_spec {db : Cdb} {s : Stk} (hi : Inv db s) (hd : 0 < s.dl) {t : Lit} {ts : List Lit} {a : Ana} {post : List Lit}
    (htr' : s.trail = ts.reverse ++ t :: post) (hs : SInv s s.dl (t :: ts) a) (hc : a.seen t.var = true ∧ s.level t.var = s.dl) :
    SInv s s.dl ts { a with seen := upd a.seen t.var false, cnt := a.cnt - 1 } ∧ (∀ x ∈ ts, x.var ≠ t.var) ∧
    ReasonOK db s ts.reverse t ∧ (a.cnt - 1 ≠ 0 → (s.reason t.var).implied = true) ∧
    ∀ q ∈ antecedents db (s.reason t.var), s.assign q.var ≠ none ∧ (s.level q.var = s.dl → q.var ∈ ts.map Lit.var) := by
  have hnd : ((t :: ts).map Lit.var).Nodup := by
    have htr : s.trail = (t :: ts).reverse ++ post := by rw [htr']; simp
    have := hi.nd; rw [htr, List.map_append, List.nodup_append] at this
    have h1 := this.1; rw [List.map_reverse, List.nodup_reverse] at h1; exact h1
  have hnd' : t.var ∉ ts.map Lit.var ∧ (ts.map Lit.var).Nodup := by
    simp only [List.map_cons] at hnd; exact List.nodup_cons.1 hnd
  have hts : ∀ x ∈ ts, x.var ≠ t.var := fun x hx e => hnd'.1 (by rw [← e]; exact List.mem_map_of_mem hx)
  have hcnt : (ts.countP (lvSeen s s.dl (upd a.seen t.var false)) : Int) = a.cnt - 1 := by
    rw [hs.cnt, List.countP_cons]
    have h1 : lvSeen s s.dl a.seen t = true := by simp [lvSeen, hc]
    have h2 : ts.countP (lvSeen s s.dl (upd a.seen t.var false)) = ts.countP (lvSeen s s.dl a.seen) := by
      apply List.countP_congr; intro x hx; simp [lvSeen, upd, hts x hx]
    rw [h1, h2]; simp
  have hr := hi.rs _ _ _ htr'
  refine ⟨?_, hts, hr, ?_, ?_⟩
  · refine ⟨?_, hs.nd, ?_, hcnt.symm⟩
    · intro l hl
      obtain ⟨h1, h2, h3⟩ := hs.rest l hl
      refine ⟨h1, h2, ?_⟩
      have : l.var ≠ t.var := fun e => h2 (by rw [e]; exact hc.2)
      simp [upd, this, h3]
    · intro v hv
      simp only [upd_apply] at hv
      split at hv
      · simp at hv
      · rename_i hne
        rcases hs.cover v hv with ⟨e, hm⟩ | hm
        · left; refine ⟨e, ?_⟩; simpa [hne] using hm
        · exact .inr hm
  · intro h0
    cases hrl : s.reason t.var with
    | binary m => rfl
    | impl c => rfl
    | none => unfold ReasonOK at hr; rw [hrl] at hr; exact hr.elim
    | decision k =>
      exfalso
      unfold ReasonOK at hr; rw [hrl] at hr; simp only [] at hr
      rw [hc.2] at hr
      have hk : k = s.dl := hr.1.symm
      have hl := hr.2 (by omega)
      rw [hk, List.length_reverse] at hl
      have hpos : 0 < ts.countP (lvSeen s s.dl (upd a.seen t.var false)) := by
        rcases Nat.eq_zero_or_pos (ts.countP (lvSeen s s.dl (upd a.seen t.var false))) with e | e
        · rw [e] at hcnt; exfalso; apply h0; rw [← hcnt]; rfl
        · exact e
      obtain ⟨x, hx, hxs⟩ := List.countP_pos_iff.1 hpos
      simp only [lvSeen, Bool.and_eq_true, beq_iff_eq] at hxs
      obtain ⟨p1, p2, e⟩ := List.append_of_mem (List.mem_reverse.2 hx)
      have htx : s.trail = p1 ++ x :: (p2 ++ t :: post) := by rw [htr', e]; simp
      have hlen : p1.length < ts.length := by
        have := congrArg List.length e; simp at this; omega
      have := hi.lev _ _ _ htx
      rw [hxs.2, ← countP_take hi.limInc hl hlen] at this
      have h2 := List.countP_le_length (p := fun x => decide (x ≤ p1.length)) (l := s.lim.take (s.dl - 1))
      rw [← this, List.length_take] at h2
      omega
  · intro q hq
    obtain ⟨m, e, hb⟩ := antecedent_before hr hq
    refine ⟨by rw [← e]; exact tr_assigned hb.1, fun hlv => ?_⟩
    rcases hb.2 with hm | hm
    · rw [← e, ← List.mem_reverse, ← List.map_reverse]; exact List.mem_map_of_mem hm
    · have := hi.arch m.var (tr_assigned hb.1) hm
      rw [e] at this; omega

/-- A literal that is not of the conflict level, or not marked, is skipped. -/
theorem skip_spec {s : Stk} {t : Lit} {ts : List Lit} {a : Ana} (hs : SInv s s.dl (t :: ts) a)
    (hc : ¬ (a.seen t.var = true ∧ s.level t.var = s.dl)) : SInv s s.dl ts a := by
  refine ⟨hs.rest, hs.nd, ?_, ?_⟩
  · intro v hv
    rcases hs.cover v hv with ⟨e, hm⟩ | hm
    · left; refine ⟨e, ?_⟩
      rcases List.mem_cons.1 (by simpa using hm : v ∈ t.var :: ts.map Lit.var) with e2 | h2
      · exact absurd ⟨e2 ▸ hv, e2 ▸ e⟩ hc
      · exact h2
    · exact .inr hm
  · rw [hs.cnt, List.countP_cons]
    have : lvSeen s s.dl a.seen t = false := by
      simp only [lvSeen]; simpa using hc
    simp [this]

theorem Inv.nodup_prefix {db : Cdb} {s : Stk} (hi : Inv db s) {ts : List Lit} {post : List Lit} (htr : s.trail = ts.reverse ++ post) :
    (ts.map Lit.var).Nodup := by
  have := hi.nd; rw [htr, List.map_append, List.nodup_append] at this
  have h1 := this.1; rw [List.map_reverse, List.nodup_reverse] at h1; exact h1

/-- The literal of the conflict level found by the loop, and the clause it stands for. -/
theorem loop_spec {db : Cdb} {s : Stk} (hi : Inv db s) (hd : 0 < s.dl) : ∀ {ts : List Lit} {a : Ana} {p : Lit} {a' : Ana} {post : List Lit},
    s.trail = ts.reverse ++ post → SInv s s.dl ts a →
    (∀ D, Mod db s D → (∀ l ∈ a.rest, Agree s D l.var) →
      (∀ t ∈ ts, a.seen t.var = true → s.level t.var = s.dl → Agree s D t.var) → False) →
    Ana.loop db s s.dl ts a = some (p, a') →
    s.tr p ∧ s.level p.var = s.dl ∧ (∀ l ∈ a'.rest, s.tr l.neg ∧ s.level l.var ≠ s.dl) ∧ (a'.rest.map Lit.var).Nodup ∧
    (∀ v, a'.seen v = true ↔ v ∈ a'.rest.map Lit.var) ∧
    (∀ D, Mod db s D → (∀ l ∈ a'.rest, Agree s D l.var) → Agree s D p.var → False)
  | [], a, p, a', post, _, _, _, he => by simp [Ana.loop] at he
  | t :: ts, a, p, a', post, htr, hs, himp, he => by
    have htr' : s.trail = ts.reverse ++ t :: post := by rw [htr]; simp
    have htt : s.tr t := hi.tv t (by rw [htr']; simp)
    unfold Ana.loop at he
    split at he
    · rename_i hc
      simp only [Bool.and_eq_true, beq_iff_eq] at hc
      obtain ⟨hS, hts, hr, himpl, hante⟩ := hit_spec hi hd htr' hs hc
      dsimp only at he
      split at he
      · rename_i h0
        simp only [Option.some.injEq, Prod.mk.injEq] at he
        obtain ⟨rfl, rfl⟩ := he
        have hz : ∀ x ∈ ts, ¬ (upd a.seen t.var false x.var = true ∧ s.level x.var = s.dl) := by
          have hcnt := hS.cnt
          simp only [] at hcnt
          rw [h0] at hcnt
          have hc0 : ts.countP (lvSeen s s.dl (upd a.seen t.var false)) = 0 := by exact_mod_cast hcnt.symm
          intro x hx hxx
          exact List.countP_eq_zero.1 hc0 x hx (by simp [lvSeen, hxx])
        refine ⟨htt, hc.2, fun l hl => ⟨(hs.rest l hl).1, (hs.rest l hl).2.1⟩, hs.nd, ?_, ?_⟩
        · intro v; constructor
          · intro hv
            rcases hS.cover v hv with ⟨e, hm⟩ | hm
            · obtain ⟨x, hx, rfl⟩ := List.mem_map.1 hm; exact absurd ⟨hv, e⟩ (hz x hx)
            · exact hm
          · intro hv; obtain ⟨l, hl, rfl⟩ := List.mem_map.1 hv; exact (hS.rest l hl).2.2
        · intro b hb h1 h2
          refine himp b hb h1 fun x hx hxs hxl => ?_
          rcases List.mem_cons.1 hx with rfl | hx
          · exact h2
          · exact absurd ⟨by simp [upd, hts x hx, hxs], hxl⟩ (hz x hx)
      · rename_i h0
        obtain ⟨x1, x2, x3, x4⟩ := expand_spec (db := db) (Inv.nodup_prefix hi htr') hS (r := s.reason t.var) hante (sign_of_reason hr)
        refine loop_spec hi hd htr' x1 ?_ he
        intro b hb h1 h2
        have hagt := reason_forces hb hr htt (himpl h0) (x4 b hb h1 h2)
        refine himp b hb (fun l hl => h1 l (x2 l hl)) fun x hx hxs hxl => ?_
        rcases List.mem_cons.1 hx with rfl | hx
        · exact hagt
        · exact h2 x hx (x3 _ (by simp [upd, hts x hx, hxs])) hxl
    · rename_i hc
      have hc' : ¬ (a.seen t.var = true ∧ s.level t.var = s.dl) := by simpa using hc
      refine loop_spec hi hd htr' (skip_spec hs hc') ?_ he
      intro b hb h1 h2
      refine himp b hb h1 fun x hx hxs hxl => ?_
      rcases List.mem_cons.1 hx with rfl | hx
      · exact absurd ⟨hxs, hxl⟩ hc'
      · exact h2 x hx hxs hxl

/-- The loop finds its literal when some marked literal belongs to the conflict level. -/
theorem loop_some {db : Cdb} {s : Stk} (hi : Inv db s) (hd : 0 < s.dl) : ∀ {ts : List Lit} {a : Ana} {post : List Lit},
    s.trail = ts.reverse ++ post → SInv s s.dl ts a → 0 < a.cnt → Ana.loop db s s.dl ts a ≠ none
  | [], a, post, _, hs, hp => by have := hs.cnt; simp at this; omega
  | t :: ts, a, post, htr, hs, hp => by
    have htr' : s.trail = ts.reverse ++ t :: post := by rw [htr]; simp
    unfold Ana.loop
    split
    · rename_i hc
      simp only [Bool.and_eq_true, beq_iff_eq] at hc
      obtain ⟨hS, hts, hr, himpl, hante⟩ := hit_spec hi hd htr' hs hc
      dsimp only
      split
      · simp
      · rename_i h0
        obtain ⟨x1, x2, x3, x4⟩ := expand_spec (db := db) (Inv.nodup_prefix hi htr') hS (r := s.reason t.var) hante (sign_of_reason hr)
        refine loop_some hi hd htr' x1 ?_
        have h1 := x1.cnt
        have h2 := hS.cnt
        simp only [] at h2
        have hle : ts.countP (lvSeen s s.dl (upd a.seen t.var false)) ≤ ts.countP (lvSeen s s.dl (Ana.expand db s s.dl
            { a with seen := upd a.seen t.var false, cnt := a.cnt - 1 } (s.reason t.var)).seen) := by
          apply List.countP_mono_left
          intro x hx hxx
          simp only [lvSeen, Bool.and_eq_true] at hxx ⊢
          exact ⟨x3 _ hxx.1, hxx.2⟩
        omega
    · rename_i hc
      have hc' : ¬ (a.seen t.var = true ∧ s.level t.var = s.dl) := by simpa using hc
      exact loop_some hi hd htr' (skip_spec hs hc') hp

end Splr
