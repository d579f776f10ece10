import Verif.Lemmas.ElimOcc
/-! Elimination of a variable: resolvents, removal of the clauses, the records for `extend_model`. -/
namespace Splr
open Stk

/-! ## resolvents -/

/-- `[]` stands for a tautology; otherwise the result has the literals of both clauses but those of `v`. -/
theorem mergeLits_spec {v : Nat} {p q : Cls} (hp : (p.map Lit.var).Nodup) (hq : (q.map Lit.var).Nodup)
    (h2p : 2 ≤ p.length) (h2q : 2 ≤ q.length) :
    (mergeLits v p q = [] → ∃ l ∈ p, l.var ≠ v ∧ l.neg ∈ q) ∧
    (mergeLits v p q ≠ [] → (∀ x, x ∈ mergeLits v p q ↔ (x ∈ p ∨ x ∈ q) ∧ x.var ≠ v) ∧ ((mergeLits v p q).map Lit.var).Nodup) := by
  unfold mergeLits
  simp only []
  -- symmetric in `p` and `q`
  have main : ∀ a b : Cls, (a.map Lit.var).Nodup → (b.map Lit.var).Nodup → 2 ≤ b.length →
      ((if (a.filter fun l => l.var ≠ v).any (fun l => decide (l.neg ∈ b)) then [] else
        (a.filter fun l => decide (l.var ≠ v) && decide (l ∉ b)) ++ b.filter fun l => l.var ≠ v) = [] → ∃ l ∈ a, l.var ≠ v ∧ l.neg ∈ b) ∧
      ((if (a.filter fun l => l.var ≠ v).any (fun l => decide (l.neg ∈ b)) then [] else
        (a.filter fun l => decide (l.var ≠ v) && decide (l ∉ b)) ++ b.filter fun l => l.var ≠ v) ≠ [] →
        (∀ x, x ∈ (if (a.filter fun l => l.var ≠ v).any (fun l => decide (l.neg ∈ b)) then [] else
        (a.filter fun l => decide (l.var ≠ v) && decide (l ∉ b)) ++ b.filter fun l => l.var ≠ v) ↔ (x ∈ a ∨ x ∈ b) ∧ x.var ≠ v) ∧
        ((if (a.filter fun l => l.var ≠ v).any (fun l => decide (l.neg ∈ b)) then [] else
        (a.filter fun l => decide (l.var ≠ v) && decide (l ∉ b)) ++ b.filter fun l => l.var ≠ v).map Lit.var).Nodup) := by
    intro a b ha hb h2
    split
    · rename_i h
      refine ⟨fun _ => ?_, fun h => absurd rfl h⟩
      rw [List.any_eq_true] at h
      obtain ⟨l, hl, hn⟩ := h
      simp at hl hn
      exact ⟨l, hl.1, hl.2, hn⟩
    · rename_i h
      have hnt : ∀ l ∈ a, l.var ≠ v → l.neg ∉ b := by
        intro l hl hv hn; exact h (List.any_eq_true.2 ⟨l, by simp [hl, hv], by simp [hn]⟩)
      refine ⟨fun e => ?_, fun _ => ⟨fun x => ?_, ?_⟩⟩
      · exfalso
        obtain ⟨-, e⟩ := List.append_eq_nil_iff.1 e
        rw [List.filter_eq_nil_iff] at e
        match b, h2 with
        | x :: y :: tl, _ =>
          have hx := e x (by simp); have hy := e y (by simp)
          simp at hx hy hb
          rw [hx, hy] at hb; exact hb.1.1 rfl
      · simp only [List.mem_append, List.mem_filter, Bool.and_eq_true, decide_eq_true_eq]
        by_cases hxb : x ∈ b <;> simp [hxb]
      · rw [List.map_append, List.nodup_append]
        refine ⟨ha.sublist (List.filter_sublist.map _), hb.sublist (List.filter_sublist.map _), ?_⟩
        intro w hw w' hw'
        rintro rfl
        obtain ⟨l, hl, rfl⟩ := List.mem_map.1 hw
        obtain ⟨m, hm, e⟩ := List.mem_map.1 hw'
        simp only [List.mem_filter, Bool.and_eq_true, decide_eq_true_eq] at hl hm
        rcases Lit.eq_or_eq_neg_of_var e with rfl | rfl
        · exact hl.2.2 hm.1
        · exact hnt l hl.1 hl.2.1 hm.1
  by_cases hlt : p.length < q.length
  · simp only [hlt, if_true]
    exact main p q hp hq h2q
  · simp only [hlt, if_false]
    obtain ⟨m1, m2⟩ := main q p hq hp h2p
    refine ⟨fun h => ?_, fun h => ?_⟩
    · obtain ⟨l, a, b, c⟩ := m1 h
      exact ⟨l.neg, c, by simpa using b, by simpa using a⟩
    · obtain ⟨m3, m4⟩ := m2 h
      exact ⟨fun x => by rw [m3 x]; tauto, m4⟩

/-- The literals of a clause but those of `v`. -/
def rest (v : Nat) (c : Cls) : Cls := c.filter fun l => decide (l.var ≠ v)

theorem mem_rest {v : Nat} {c : Cls} {x : Lit} : x ∈ rest v c ↔ x ∈ c ∧ x.var ≠ v := by simp [rest]

/-- The resolvent of the clauses `p` and `n` of `db0` is taken care of in `db`, `s`. -/
def Resolved (db0 : Cdb) (v p n : Nat) (db : Cdb) (s : Stk) : Prop :=
  (∃ l ∈ (db0.clause p).lits, l.var ≠ v ∧ l.neg ∈ (db0.clause n).lits) ∨
  (∃ l, (∀ x, (x ∈ (db0.clause p).lits ∨ x ∈ (db0.clause n).lits) ∧ x.var ≠ v ↔ x = l) ∧ Root s l) ∨
  ∃ j, (db.clause j).lits ≠ [] ∧ (∀ l, l ∈ (db.clause j).lits ↔ (l ∈ (db0.clause p).lits ∨ l ∈ (db0.clause n).lits) ∧ l.var ≠ v) ∧
    (Prim (db0.clause p) → Prim (db0.clause n) → Prim (db.clause j))

/-- `c` is the resolvent on `v` of two clauses of `db0`. -/
def IsRes (db0 : Cdb) (v : Nat) (c : Cls) : Prop := ∃ p n, ⟨v, true⟩ ∈ (db0.clause p).lits ∧ ⟨v, false⟩ ∈ (db0.clause n).lits ∧
  ∀ l, l ∈ c ↔ (l ∈ (db0.clause p).lits ∨ l ∈ (db0.clause n).lits) ∧ l.var ≠ v

/-- What resolving leaves. -/
structure RKept (db0 : Cdb) (v : Nat) (e0 : El) (y : DS × El) : Prop where
  lim : y.1.2.lim = []
  occ : OccInv y.2 y.1.1 y.1.2
  lits : y.2.lits = e0.lits
  keep : ∀ i, (db0.clause i).lits ≠ [] → (y.1.1.clause i).lits = (db0.clause i).lits ∧ (y.1.1.clause i).learnt = (db0.clause i).learnt
  noV : ∀ i, ∀ l ∈ (y.1.1.clause i).lits, l.var = v → l ∈ (db0.clause i).lits
  un : y.1.2.assign v = none
  src : ∀ i, (y.1.1.clause i).lits ≠ [] → (y.1.1.clause i).lits = (db0.clause i).lits ∨ IsRes db0 v (y.1.1.clause i).lits

theorem assignRootRes_other {s : Stk} {db : Cdb} {l : Lit} {y : DS} (hl : s.lim = []) (e : s.assignRootRes db l = .ok y) {w : Nat}
    (hw : w ≠ l.var) : y.2.assign w = s.assign w := by
  unfold Stk.assignRootRes Stk.assignRoot at e
  rw [cancelUntil_noop (by unfold Stk.dl; rw [hl]; simp)] at e
  cases h : s.assign l.var with
  | none => simp [h] at e; rw [← e]; simp [makeAsserted, upd_of_ne _ _ hw]
  | some x =>
    cases hx : (x == l.pos) <;> simp [h, hx] at e
    rw [← e]

theorem flags_learnt_addCid {evo : Nat} {x : DS} {e : El} {cid i : Nat} : ((addCid evo x e cid).1.1.clause i).learnt = (x.1.clause i).learnt := by
  unfold addCid; split
  · rfl
  · simp only [Cdb.setLinked, Cdb.setC, upd_apply]; split
    · rename_i h; rw [h]
    · rfl

/-- A literal set falsifying both rests is contradictory. -/
theorem resolve_rup {D : Lit → Prop} (hc : Cons D) {p n : Cls} {t : Lit} (hp : Resp D p) (hn : Resp D n) (ht : t ∈ p) (htn : t.neg ∈ n)
    (hpd : (p.map Lit.var).Nodup) (hnd : (n.map Lit.var).Nodup)
    (h : ∀ x, (x ∈ p ∨ x ∈ n) → x.var ≠ t.var → D x.neg) : False := by
  have uniq : ∀ {c : Cls} {a b : Lit}, (c.map Lit.var).Nodup → a ∈ c → b ∈ c → a ≠ b → a.var ≠ b.var := by
    intro c a b hd ha hb hne e
    exact hne (List.inj_on_of_nodup_map hd ha hb e)
  have h1 : D t := hp.1 t ht fun y hy hne => h y (.inl hy) (uniq hpd hy ht hne)
  have h2 : D t.neg := hn.1 t.neg htn fun y hy hne => h y (.inr hy) (by have := uniq hnd hy htn hne; simpa using this)
  exact hc t h1 h2

theorem rg_resolveOne {r : Bool} {evo v : Nat} {db0 : Cdb} {e0 : El} {p n : Nat} {y : DS × El} (hi : RInv y.1.1 y.1.2) (hd : Dom y.1.1 y.1.2)
    (hw0 : db0.WF) (hk : RKept db0 v e0 y) (hp : ⟨v, true⟩ ∈ (db0.clause p).lits) (hn : ⟨v, false⟩ ∈ (db0.clause n).lits) :
    RG false r y.1.1 y.1.2 (·.1) (fun z => RKept db0 v e0 z ∧ Resolved db0 v p n z.1.1 z.1.2) (resolveOne evo v p n y) := by
  have hpne : (db0.clause p).lits ≠ [] := List.ne_nil_of_mem hp
  have hnne : (db0.clause n).lits ≠ [] := List.ne_nil_of_mem hn
  obtain ⟨kp, kpl⟩ := hk.keep p hpne
  obtain ⟨kn, knl⟩ := hk.keep n hnne
  have hpd := hw0.nd p
  have hnd := hw0.nd n
  obtain ⟨m1, m2⟩ := mergeLits_spec (v := v) hpd hnd (hw0.len2 p hpne) (hw0.len2 n hnne)
  have hrup : ∀ D, MC y.1.1 y.1.2 D → (∀ x, (x ∈ (db0.clause p).lits ∨ x ∈ (db0.clause n).lits) → x.var ≠ v → D x.neg) → False := by
    intro D hD hx
    have r1 := hD.1.resp (i := p) (by rw [kp]; exact hpne)
    have r2 := hD.1.resp (i := n) (by rw [kn]; exact hnne)
    rw [kp] at r1; rw [kn] at r2
    exact resolve_rup hD.2 r1 r2 hp hn hpd hnd hx
  have hokv : ∀ x, (x ∈ (db0.clause p).lits ∨ x ∈ (db0.clause n).lits) → Dom y.1.1 y.1.2 → Okv y.1.2 x.var := by
    intro x hx hd
    rcases hx with hx | hx
    · exact hd.cl p x (by rw [kp]; exact hx)
    · exact hd.cl n x (by rw [kn]; exact hx)
  have hlv : ∀ l, y.1.2.tr l → Root y.1.2 l := fun l h => ⟨h, hi.inv.level_root hk.lim (tr_assigned h)⟩
  unfold resolveOne
  simp only []
  rw [kp, kn, kpl, knl]
  match hm : mergeLits v (db0.clause p).lits (db0.clause n).lits with
  | [] =>
    simp only []
    exact ⟨.refl hi, hk, .inl (m1 hm)⟩
  | [l] =>
    simp only []
    obtain ⟨m3, -⟩ := m2 (by rw [hm]; simp)
    rw [hm] at m3
    have hl := (m3 l).1 (by simp)
    have hru : ∀ D, MC y.1.1 y.1.2 D → D l.neg → False := fun D hD hnl => hrup D hD fun x hx hv => by
      have := (m3 x).2 ⟨hx, hv⟩; simp at this; rw [this]; exact hnl
    rcases tr_cases y.1.2 l with ht | ht | ht
    · rw [val_true.2 ht]
      exact ⟨.refl hi, hk, .inr (.inl ⟨l, fun x => by rw [← m3 x]; simp, hlv l ht⟩)⟩
    · rw [val_false.2 ht]
      exact .now rfl fun D hD => hru D hD (hD.1.root _ ht (hlv _ ht).2)
    · rw [val_none.2 ht]
      have hru := rg_unit (k := false) (r := r) hi hk.lim hru (hokv l hl.1)
      cases has : y.1.2.assignRootRes (y.1.1.log (.add [l])) l with
      | unsat db' s' => rw [has] at hru; exact hru
      | err => trivial
      | panic => trivial
      | fuel => trivial
      | ok z =>
      rw [has] at hru
      obtain ⟨tz, hz⟩ := hru
      simp only [Res.bind]
      refine ⟨tz, ?_, ?_⟩
      · obtain ⟨z1, z2, z3⟩ := hz
        simp only [id] at tz
        have hc : ∀ i, z.1.clause i = y.1.1.clause i := fun i => by rw [z2]; rfl
        refine ⟨z1, hk.occ.mono (fun i l h => ?_) (tz.assigned hi.inv hk.lim), hk.lits, fun i h => ?_, fun i l h hv => ?_, ?_, fun i h => ?_⟩
        · simp only [] at h; rw [hc] at h; exact h
        · simp only []; rw [hc]; exact hk.keep i h
        · simp only [] at h; rw [hc] at h; exact hk.noV i l h hv
        · show z.2.assign v = none; rw [assignRootRes_other hk.lim has (Ne.symm hl.2)]; exact hk.un
        · simp only [] at h ⊢; rw [hc] at h ⊢; exact hk.src i h
      · exact .inr (.inl ⟨l, fun x => by rw [← m3 x]; simp, hz.2.2⟩)
  | a :: b :: tl =>
    simp only []
    obtain ⟨m3, m4⟩ := m2 (by rw [hm]; simp)
    rw [hm] at m3 m4
    cases hnc : y.1.1.newClause y.1.2.level (a :: b :: tl) ((db0.clause p).learnt && (db0.clause n).learnt) with
    | none => simp only []; trivial
    | some o =>
      obtain ⟨db1, rf⟩ := o
      obtain ⟨t, j, hadd, hrf, hfr⟩ := Tr.add (k := false) (r := r) hi m4 hnc (fun D hD hx => hrup D hD fun x hx' hv => hx x ((m3 x).2 ⟨hx', hv⟩))
        (fun hd x hx => hokv x ((m3 x).1 hx).1 hd)
      have hprim : Prim (db0.clause p) → Prim (db0.clause n) → Prim (db1.clause j) := by
        intro h1 h2
        apply hadd.prim
        by_cases hl : ((db0.clause p).learnt && (db0.clause n).learnt) = true
        · right
          simp only [Bool.and_eq_true] at hl
          have l1 : (db0.clause p).lits.length = 2 := by rcases h1 with h | h; rw [hl.1] at h; simp at h; exact h
          have l2 : (db0.clause n).lits.length = 2 := by rcases h2 with h | h; rw [hl.2] at h; simp at h; exact h
          -- one literal from each clause
          have hsub : ∀ x ∈ (a :: b :: tl), x ∈ rest v (db0.clause p).lits ++ rest v (db0.clause n).lits := by
            intro x hx; have := (m3 x).1 hx; rw [List.mem_append, mem_rest, mem_rest]; tauto
          have hrl : ∀ (c : Cls) (t : Lit), t ∈ c → t.var = v → c.length = 2 → (rest v c).length ≤ 1 := by
            intro c t ht hv hc
            have := List.length_filter_lt_length_iff_exists (p := fun l : Lit => decide (l.var ≠ v)) (l := c) |>.2 ⟨t, ht, by simp [hv]⟩
            unfold rest; omega
          have := ((List.Nodup.of_map _ m4).subperm hsub).length_le
          rw [List.length_append] at this
          have g1 := hrl _ _ hp rfl l1
          have g2 := hrl _ _ hn rfl l2
          simp at this ⊢
          cases tl with
          | nil => rfl
          | cons => simp at this; omega
        · left; simpa using hl
      have hji : ∀ l, l ∈ (db1.clause j).lits ↔ (l ∈ (db0.clause p).lits ∨ l ∈ (db0.clause n).lits) ∧ l.var ≠ v :=
        fun l => (hadd.mem l).trans (m3 l)
      have hjl : ∀ l ∈ (db1.clause j).lits, (l ∈ (db0.clause p).lits ∨ l ∈ (db0.clause n).lits) ∧ l.var ≠ v := fun l h => (hji l).1 h
      have hres : Resolved db0 v p n db1 y.1.2 := .inr (.inr ⟨j, hadd.ne, hji, hprim⟩)
      have hsrc : ∀ i, (db1.clause i).lits ≠ [] → (db1.clause i).lits = (db0.clause i).lits ∨ IsRes db0 v (db1.clause i).lits := by
        intro i h
        by_cases e : i = j
        · subst e; exact .inr ⟨p, n, hp, hn, hji⟩
        · rw [hadd.old i e] at h ⊢; exact hk.src i h
      have hkeep : ∀ i, (db0.clause i).lits ≠ [] → (db1.clause i).lits = (db0.clause i).lits ∧ (db1.clause i).learnt = (db0.clause i).learnt := by
        intro i h
        have := hk.keep i h
        rw [hadd.keep i (by rw [this.1]; exact h)]; exact this
      have hnoV : ∀ i, ∀ l ∈ (db1.clause i).lits, l.var = v → l ∈ (db0.clause i).lits := by
        intro i l h hv
        by_cases e : i = j
        · subst e; exact absurd hv (hjl l h).2
        · rw [hadd.old i e] at h; exact hk.noV i l h hv
      rcases hrf with rfl | rfl
      · simp only []
        obtain ⟨f1, f2, f3⟩ := hfr rfl
        have hf := flags_addCid evo (db1, y.1.2) y.2 j
        have hel : ∀ l ∈ (db1.clause j).lits, y.1.2.elim l.var = false := fun l h => (hokv l (hjl l h).1 hd).2.2
        have hstk : (addCid evo (db1, y.1.2) y.2 j).1.2 = y.1.2 := (addCid_spec (x := (db1, y.1.2)) f3 hel).1
        refine ⟨t.trans ?_, ⟨?_, ?_, ?_, ?_, ?_, by rw [hstk]; exact hk.un, ?_⟩, ?_⟩
        · rw [hstk]; exact Tr.flags t.rinv hk.lim hf
        · rw [hstk]; exact hk.lim
        · refine addCid_occ (x := (db1, y.1.2)) f3 hel fun i ei l hl hab => ?_
          have hl : l ∈ (db1.clause i).lits := hl
          rw [hadd.old i ei] at hl
          exact hk.occ i l hl hab
        · rw [(addCid_spec (x := (db1, y.1.2)) f3 hel).2.1]; exact hk.lits
        · intro i h; rw [hf.lits, flags_learnt_addCid]; exact hkeep i h
        · intro i l h hv; rw [hf.lits] at h; exact hnoV i l h hv
        · intro i h; rw [hf.lits] at h ⊢; exact hsrc i h
        · rw [hstk]
          rcases hres with h | h | ⟨j', a1, a2, a3⟩
          · exact .inl h
          · exact .inr (.inl h)
          · refine .inr (.inr ⟨j', ?_⟩)
            rw [hf.lits]
            exact ⟨a1, a2, fun x1 x2 => hf.prim (a3 x1 x2)⟩
      · simp only []
        refine ⟨t, ⟨hk.lim, ?_, hk.lits, hkeep, hnoV, hk.un, hsrc⟩, hres⟩
        refine hk.occ.mono (fun i l hl => ?_) (fun _ h => h)
        have hl : l ∈ (db1.clause i).lits := hl
        rcases hadd.fresh with hfresh | ⟨rfl, -⟩
        · -- a registered clause is not fresh
          by_cases ei : i = j
          · exfalso
            rw [show db1 = y.1.1 from ?_] at hl
            · rw [ei, hfresh] at hl; simp at hl
            · unfold Cdb.newClause at hnc
              simp only [] at hnc
              split at hnc
              · simp at hnc; exact hnc.1.symm
              · simp at hnc
          · rw [hadd.old i ei] at hl; exact hl
        · exact hl

theorem Resolved.mono {db0 : Cdb} {v p n : Nat} {db db' : Cdb} {s s' : Stk} (h : Resolved db0 v p n db s)
    (hc : ∀ i, (db.clause i).lits ≠ [] → (db'.clause i).lits = (db.clause i).lits ∧ (db'.clause i).learnt = (db.clause i).learnt)
    (hr : ∀ l, Root s l → Root s' l) : Resolved db0 v p n db' s' := by
  rcases h with h | ⟨l, h1, h3⟩ | ⟨j, h1, h2, h3⟩
  · exact .inl h
  · exact .inr (.inl ⟨l, h1, hr l h3⟩)
  · refine .inr (.inr ⟨j, ?_⟩)
    obtain ⟨e1, e2⟩ := hc j h1
    unfold Prim at *
    rw [e1, e2]
    exact ⟨h1, h2, h3⟩

theorem rg_resolveAll {r : Bool} {evo v : Nat} {db0 : Cdb} {e0 : El} (hw0 : db0.WF) : ∀ {ps : List (Nat × Nat)} {y : DS × El},
    RInv y.1.1 y.1.2 → Dom y.1.1 y.1.2 → RKept db0 v e0 y → (∀ q ∈ ps, ⟨v, true⟩ ∈ (db0.clause q.1).lits ∧ ⟨v, false⟩ ∈ (db0.clause q.2).lits) →
    RG false r y.1.1 y.1.2 (·.1) (fun z => RKept db0 v e0 z ∧ (∀ i, (y.1.1.clause i).lits ≠ [] →
      (z.1.1.clause i).lits = (y.1.1.clause i).lits ∧ (z.1.1.clause i).learnt = (y.1.1.clause i).learnt) ∧
      ∀ q ∈ ps, Resolved db0 v q.1 q.2 z.1.1 z.1.2) (resolveAll evo v ps y)
  | [], y, hi, _, hk, _ => ⟨.refl hi, hk, fun _ _ => ⟨rfl, rfl⟩, by simp⟩
  | (p, n) :: ps, y, hi, hd, hk, hps => by
    unfold resolveAll
    have hpn := hps (p, n) (by simp)
    -- once more, relative to the current database, to know that nothing is lost
    have hself : RKept y.1.1 v e0 y := ⟨hk.lim, hk.occ, hk.lits, fun _ _ => ⟨rfl, rfl⟩, fun _ _ h _ => h, hk.un, fun _ _ => .inl rfl⟩
    have h1 := rg_resolveOne (r := r) (evo := evo) hi hd hw0 hk hpn.1 hpn.2
    have h2 := rg_resolveOne (r := r) (evo := evo) (p := p) (n := n) hi hd hi.wf hself
      (by rw [(hk.keep p (List.ne_nil_of_mem hpn.1)).1]; exact hpn.1) (by rw [(hk.keep n (List.ne_nil_of_mem hpn.2)).1]; exact hpn.2)
    cases hro : resolveOne evo v p n y with
    | ok z =>
      rw [hro] at h1 h2
      obtain ⟨t, hk1, hr1⟩ := h1
      obtain ⟨-, hk2, -⟩ := h2
      simp only [Res.bind]
      refine RG.after t ((rg_resolveAll hw0 t.rinv (t.dom hd) hk1 fun q hq => hps q (by simp [hq])).mono ?_)
      rintro u tu ⟨hu1, hu2, hu3⟩
      refine ⟨hu1, fun i hi => ?_, fun q hq => ?_⟩
      · obtain ⟨a1, a2⟩ := hk2.keep i hi
        obtain ⟨b1, b2⟩ := hu2 i (by rw [a1]; exact hi)
        exact ⟨b1.trans a1, b2.trans a2⟩
      · rcases List.mem_cons.1 hq with rfl | hq
        · exact hr1.mono hu2 tu.root
        · exact hu3 q hq
    | unsat db s => rw [hro] at h1; exact h1
    | _ => simp only [Res.bind]; trivial

/-! ## removing the clauses -/

structure DroppedAll (cids : List Nat) (y z : DS × El) : Prop where
  stk : z.1.2 = y.1.2
  wf : z.1.1.WF
  gone : ∀ i ∈ cids, (z.1.1.clause i).lits = []
  keep : ∀ i, i ∉ cids → z.1.1.clause i = y.1.1.clause i
  sub : ∀ i, ∀ l ∈ (z.1.1.clause i).lits, l ∈ (y.1.1.clause i).lits
  dels : Cdb.Dels y.1.1 z.1.1
  lits : z.2.lits = y.2.lits
  occ : OccInv z.2 z.1.1 z.1.2

theorem dropAll_spec : ∀ {cids : List Nat} {y : DS × El}, y.1.1.WF → OccInv y.2 y.1.1 y.1.2 → ∃ z, dropAll cids y = .ok z ∧ DroppedAll cids y z
  | [], y, hw, ho => ⟨y, rfl, rfl, hw, by simp, fun _ _ => rfl, fun _ _ h => h, .refl _, rfl, ho⟩
  | cid :: cids, y, hw, ho => by
    unfold dropAll
    split
    · rename_i hd
      have hd : (y.1.1.clause cid).lits = [] := by simpa [Cl.dead] using hd
      obtain ⟨z, hz, h⟩ := dropAll_spec (cids := cids) hw ho
      refine ⟨z, hz, h.stk, h.wf, fun i hi => ?_, fun i hi => h.keep i fun hm => hi (by simp [hm]), h.sub, h.dels, h.lits, h.occ⟩
      rcases List.mem_cons.1 hi with rfl | hi
      · by_contra hne
        obtain ⟨x, hx⟩ := List.exists_mem_of_ne_nil _ hne
        have := h.sub i x hx
        rw [hd] at this; simp at this
      · exact h.gone i hi
    · rename_i hd
      have hd : (y.1.1.clause cid).lits ≠ [] := by simpa [Cl.dead] using hd
      obtain ⟨u, hu, hdr, -⟩ := dropClause_spec (x := y.1) (e := y.2) hw hd
      rw [hu]
      simp only [Res.bind]
      obtain ⟨z, hz, h⟩ := dropAll_spec (cids := cids) hdr.wf (hdr.occ ho (fun i _ l h => h) (fun _ h => h))
      have hsub : ∀ i, ∀ l ∈ (u.1.1.clause i).lits, l ∈ (y.1.1.clause i).lits := by
        intro i l hl
        by_cases e : i = cid
        · subst e; rw [hdr.gone] at hl; simp at hl
        · rw [hdr.keep i e] at hl; exact hl
      refine ⟨z, hz, h.stk.trans hdr.stk, h.wf, fun i hi => ?_, fun i hi => ?_, fun i l hl => hsub i l (h.sub i l hl), ?_, h.lits.trans hdr.lits, h.occ⟩
      · rcases List.mem_cons.1 hi with rfl | hi
        · by_contra hne
          obtain ⟨x, hx⟩ := List.exists_mem_of_ne_nil _ hne
          have := h.sub i x hx
          rw [hdr.gone] at this; simp at this
        · exact h.gone i hi
      · simp only [List.mem_cons, not_or] at hi
        rw [h.keep i hi.2, hdr.keep i hi.1]
      · exact (Cdb.Dels.one hw hdr.wf hdr.keep hd hdr.gone hdr.cert).trans h.dels

/-! ## the records -/

theorem elimFold_none {v : Nat} : ∀ {c : Cls} {acc : List Lit}, (∀ l ∈ c, l.var ≠ v) →
    c.foldl (fun acc l => if l.var = v then swapAt (acc ++ [l]) acc.length 0 else acc ++ [l]) acc = acc ++ c
  | [], acc, _ => by simp
  | l :: c, acc, h => by
    simp only [List.foldl_cons]
    rw [if_neg (h l (by simp)), elimFold_none fun x hx => h x (by simp [hx])]
    simp

/-- The record of a clause: the literal of `v` first. -/
theorem elimClause_spec {v : Nat} {c : Cls} {t : Lit} (ht : t ∈ c) (hv : t.var = v) (hnd : (c.map Lit.var).Nodup) :
    ∃ rs : Cls, elimClause v c = encode [(t, rs)] ∧ ∀ x, x ∈ rs ↔ x ∈ c ∧ x.var ≠ v := by
  obtain ⟨c1, c2, rfl⟩ := List.append_of_mem ht
  rw [List.map_append, List.map_cons, List.nodup_append] at hnd
  obtain ⟨n1, n2, n3⟩ := hnd
  have h1 : ∀ l ∈ c1, l.var ≠ v := fun l hl e => n3 l.var (List.mem_map_of_mem hl) t.var (by simp) (by rw [e, hv])
  have h2 : ∀ l ∈ c2, l.var ≠ v := by
    rw [List.nodup_cons] at n2
    intro l hl e; exact n2.1 (by rw [hv, ← e]; exact List.mem_map_of_mem hl)
  have e1 : c1.foldl (fun acc l => if l.var = v then swapAt (acc ++ [l]) acc.length 0 else acc ++ [l]) [] = c1 := by
    rw [elimFold_none h1]; simp
  obtain ⟨rs1, hs, hp⟩ : ∃ rs1, swapAt (c1 ++ [t]) c1.length 0 = t :: rs1 ∧ rs1.Perm c1 := by
    cases c1 with
    | nil => exact ⟨[], by simp [swapAt], .refl _⟩
    | cons a c1 =>
      have hperm := Cdb.swapAt_perm (a :: c1 ++ [t]) (a :: c1).length 0
      have hh : ∃ rs1, swapAt (a :: c1 ++ [t]) (a :: c1).length 0 = t :: rs1 := by
        refine ⟨c1 ++ [a], ?_⟩
        simp [swapAt]
      obtain ⟨rs1, hh⟩ := hh
      refine ⟨rs1, hh, ?_⟩
      rw [hh] at hperm
      have : (t :: rs1).Perm (t :: (a :: c1)) := hperm.trans (List.perm_append_singleton t _)
      exact List.Perm.cons_inv this
  refine ⟨rs1 ++ c2, ?_, fun x => ?_⟩
  · unfold elimClause
    rw [List.foldl_append, e1, List.foldl_cons, if_pos hv, hs, elimFold_none h2]
    simp [encode, hp.length_eq, Nat.add_assoc]
  · simp only [List.mem_append, List.mem_cons, hp.mem_iff]
    constructor
    · rintro (h | h)
      · exact ⟨.inl h, h1 x h⟩
      · exact ⟨.inr (.inr h), h2 x h⟩
    · rintro ⟨h | rfl | h, hx⟩
      · exact .inl h
      · exact absurd hv hx
      · exact .inr h

/-- The records of the clauses of a literal. -/
theorem elimRecs {v : Nat} {t : Lit} (hv : t.var = v) : ∀ {cs : List Cls}, (∀ c ∈ cs, t ∈ c ∧ (c.map Lit.var).Nodup) →
    ∃ recs : List Rec, cs.flatMap (elimClause v) = encode recs ∧ (∀ r ∈ recs, r.1 = t ∧ ∃ c ∈ cs, ∀ x, x ∈ r.2 ↔ x ∈ c ∧ x.var ≠ v) ∧
      ∀ c ∈ cs, ∃ r ∈ recs, ∀ x, x ∈ r.2 ↔ x ∈ c ∧ x.var ≠ v
  | [], _ => ⟨[], rfl, by simp, by simp⟩
  | c :: cs, h => by
    obtain ⟨recs, h1, h2, h3⟩ := elimRecs hv (cs := cs) fun c hc => h c (by simp [hc])
    obtain ⟨rs, e, hm⟩ := elimClause_spec (h c (by simp)).1 hv (h c (by simp)).2
    refine ⟨(t, rs) :: recs, ?_, ?_, ?_⟩
    · rw [List.flatMap_cons, e, h1, ← encode_append]; rfl
    · intro r hr
      rcases List.mem_cons.1 hr with rfl | hr
      · exact ⟨rfl, c, by simp, hm⟩
      · obtain ⟨a, c', b, d⟩ := h2 r hr
        exact ⟨a, c', by simp [b], d⟩
    · intro c' hc'
      rcases List.mem_cons.1 hc' with rfl | hc'
      · exact ⟨(t, rs), by simp, hm⟩
      · obtain ⟨r, a, b⟩ := h3 c' hc'
        exact ⟨r, by simp [a], b⟩

/-- Applying the records of one variable: the target becomes true iff some record has only false literals. -/
theorem extR_one {t : Lit} {recs : List Rec} (hr : ∀ r ∈ recs, r.1 = t ∧ ∀ x ∈ r.2, x.var ≠ t.var) (b : Asg) :
    extR recs (upd b t.var (!t.pos)) = upd b t.var (if (∃ r ∈ recs, ∀ x ∈ r.2, ¬ x.sat b) then t.pos else !t.pos) := by
  induction recs with
  | nil => simp [extR]
  | cons r recs ih =>
    have ih := ih fun r hr' => hr r (by simp [hr'])
    obtain ⟨e, hx⟩ := hr r (by simp)
    show extRec r (extR recs _) = _
    rw [ih]
    unfold extRec
    have hall : ∀ b' : Asg, (∀ w, w ≠ t.var → b' w = b w) → ((r.2.all fun x => b' x.var != x.pos) = true ↔ ∀ x ∈ r.2, ¬ x.sat b) := by
      intro b' hb
      rw [List.all_eq_true]
      refine forall₂_congr fun x hm => ?_
      rw [hb _ (hx x hm)]; unfold Lit.sat; simp
    have hu : ∀ y, ∀ w, w ≠ t.var → upd b t.var y w = b w := fun y w hw => upd_of_ne _ _ hw
    by_cases h1 : ∀ x ∈ r.2, ¬ x.sat b
    · have hex : ∃ r' ∈ r :: recs, ∀ x ∈ r'.2, ¬ x.sat b := ⟨r, by simp, h1⟩
      rw [if_pos ((hall _ (hu _)).2 h1), if_pos hex, e]
      funext w; simp only [upd_apply]; split <;> rfl
    · rw [if_neg (fun h => h1 ((hall _ (hu _)).1 h))]
      congr 1
      by_cases h2 : ∃ r ∈ recs, ∀ x ∈ r.2, ¬ x.sat b
      · rw [if_pos h2, if_pos]
        obtain ⟨r', a, b⟩ := h2; exact ⟨r', by simp [a], b⟩
      · rw [if_neg h2, if_neg]
        rintro ⟨r', a, b⟩
        rcases List.mem_cons.1 a with rfl | a
        · exact h1 b
        · exact h2 ⟨r', a, b⟩

end Splr
