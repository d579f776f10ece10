import Verif.Lemmas.RootSpec
import Verif.Lemmas.BinComplete
/-! Vivification. -/
namespace Splr
open Stk

/-! ## adding a clause -/

theorem newClause_linked {db db' : Cdb} {level : Nat → Nat} {vec : Cls} {learnt : Bool} {cid : Nat} (h : db.WF)
    (e : db.newClause level vec learnt = some (db', .clause cid)) : (db'.clause cid).occurLinked = false := by
  unfold Cdb.newClause at e
  split at e
  next l0 l1 tl =>
    split at e
    · simp at e
    · simp only [Option.some.injEq, Prod.mk.injEq] at e
      obtain ⟨rfl, e2⟩ := e
      have h1 : (db.log (.add (l0 :: l1 :: tl))).WF := h.congr rfl rfl rfl rfl rfl rfl
      set c : Cl := Cl.mk (l0 :: l1 :: tl) (learnt && !tl.isEmpty) 2
        (if tl.isEmpty = true then 1 else lbdOf level (l0 :: l1 :: tl)) false false with hc
      obtain ⟨a1, a2, -⟩ := Cdb.alloc_spec h1 c (by simp [hc])
      cases e2
      rw [Cdb.attach_clause]
      show (((db.log (.add (l0 :: l1 :: tl))).alloc c).1.clause _).occurLinked = false
      rw [a2]; simp [upd, hc]
  next => simp at e

/-- What `new_clause` does to a database. -/
structure Added (db : Cdb) (vec : Cls) (learnt : Bool) (db' : Cdb) (j : Nat) : Prop where
  ne : (db'.clause j).lits ≠ []
  mem : ∀ x, x ∈ (db'.clause j).lits ↔ x ∈ vec
  prim : learnt = false ∨ vec.length = 2 → Prim (db'.clause j)
  keep : ∀ i, (db.clause i).lits ≠ [] → db'.clause i = db.clause i
  old : ∀ i, i ≠ j → db'.clause i = db.clause i
  fresh : (db.clause j).lits = [] ∨ (db' = db ∧ vec.length = 2 ∧ (db.clause j).lits.length = 2)

theorem Tr.add {k r : Bool} {db : Cdb} {s : Stk} {vec : Cls} {learnt : Bool} {db' : Cdb} {rf : RefClause} {lvl : Nat → Nat} (hi : RInv db s)
    (hnd : (vec.map Lit.var).Nodup) (e : db.newClause lvl vec learnt = some (db', rf))
    (hrup : ∀ D, MC db s D → (∀ x ∈ vec, D x.neg) → False) (hdom : Dom db s → ∀ x ∈ vec, Okv s x.var) :
    Tr k r db s db' s ∧ ∃ j, Added db vec learnt db' j ∧ (rf = .clause j ∨ rf = .registered j) ∧
      (rf = .clause j → (db.clause j).lits = [] ∧ (db'.clause j).lits = vec ∧ (db'.clause j).occurLinked = false) := by
  obtain ⟨w, h⟩ := Cdb.newClause_spec hi.wf hnd e
  rcases h with ⟨cid, a, b, hr, rfl, rfl, hc⟩ | ⟨cid, c, hr, h0, hlt, hold, hcl, h2, hsf, hlr, hbl, hcc, hcert⟩
  · refine ⟨.refl hi, cid, ⟨?_, ?_, ?_, fun _ _ => rfl, fun _ _ => rfl, .inr ⟨rfl, rfl, ?_⟩⟩, .inr hr, ?_⟩
    · rcases hc with e | e <;> rw [e] <;> simp
    · intro x; rcases hc with e | e <;> rw [e] <;> simp <;> tauto
    · intro _; right; rcases hc with e | e <;> rw [e] <;> rfl
    · rcases hc with e | e <;> rw [e] <;> rfl
    · rintro rfl; simp at hr
  · subst hr
    have hlk := newClause_linked hi.wf e
    have hne : c.lits ≠ [] := by rw [hcl]; intro e; rw [e] at h2; simp at h2
    have hcid : db'.clause cid = c := by rw [hcc]; simp
    have hk : ∀ i, (db.clause i).lits ≠ [] → db'.clause i = db.clause i := fun i hi => by
      rw [hcc, upd_of_ne]; rintro rfl; exact hi hold
    have hk2 : ∀ i, i ≠ cid → db'.clause i = db.clause i := fun i hi => by rw [hcc, upd_of_ne _ _ hi]
    refine ⟨?_, cid, ⟨by rw [hcid]; exact hne, by rw [hcid, hcl]; simp, ?_, hk, hk2, .inl hold⟩, .inl rfl, fun _ => ⟨hold, by rw [hcid, hcl], hlk⟩⟩
    · refine Tr.ofDb ⟨w, hi.inv.grow fun i hi => by rw [hk i hi]⟩ [vec] [] (by rw [hcert]; simp) (by simp)
        (fun hw => lives_add hw w hk2 hold (by rw [hcid, hcl])) (.one hrup) ?_ ?_ ?_ ?_ ?_ ?_ fun c' hc' => by
          rw [List.mem_singleton.1 hc', ← hcl]; exact hne
      · intro i hn
        by_cases ei : i = cid
        · subst ei; right; exact ⟨vec, by simp, by rw [hcid, hcl]; simp⟩
        · rw [hk2 i ei] at hn ⊢; exact .inl ⟨i, hn, fun _ => .rfl⟩
      · intro i hn hp; right; refine ⟨i, ?_⟩; rw [hk i hn]; exact ⟨hn, hp, fun _ h => h⟩
      · intro _ i hn; right; refine ⟨i, ?_⟩; rw [hk i hn]; exact ⟨hn, fun _ h => h⟩
      · intro _ d hd; simp at hd; subst hd; exact .inr (.inl ⟨cid, by rw [hcid]; exact hne, by rw [hcid, hcl]; simp⟩)
      · intro hd c' hc'; simp at hc'; subst hc'; exact hdom hd
      · intro _ hu i hn
        by_cases ei : i = cid
        · subst ei; exact hlk
        · rw [hk2 i ei] at hn ⊢; exact hu i hn
    · intro h; rw [hcid]; unfold Prim
      rcases h with h | h
      · left; rw [hlr, h]; rfl
      · right; rw [hcl, h]

/-! ## decisions on the trail -/

/-- The decisions on the trail above the root level are those of the list. -/
def DecIn (s : Stk) (decs : List Lit) : Prop :=
  ∀ l ∈ s.trail, 0 < s.level l.var → (s.reason l.var).implied = false → l ∈ decs

theorem PStep.decIn {db s db' s'} (h : PStep db s db' s') (hi : Inv db s) {decs : List Lit} (hd : DecIn s decs) : DecIn s' decs := by
  cases h with
  | imply l r hn hr =>
    obtain ⟨f1, f2, f3, f4, -⟩ := assignImpl_fields s l r s.dl
    intro m hm h1 h2
    rw [f4] at hm
    by_cases e : m.var = l.var
    · exfalso
      rw [f2, e, upd_same] at h1
      rw [e] at h2
      unfold Stk.assignImpl at h2; simp only [] at h2
      rw [if_neg (by omega)] at h2
      simp at h2
      cases r with
      | none => exact hr.elim
      | decision => exact hr.elim
      | _ => simp [Reason.implied] at h2
    · rw [f2, upd_of_ne _ _ e] at h1
      rw [f3, upd_of_ne _ _ e] at h2
      rcases List.mem_append.1 hm with hm | hm
      · exact hd m hm h1 h2
      · simp at hm; subst hm; exact absurd rfl e
  | _ => exact hd

theorem PSteps.decIn {db s db' s'} (h : PSteps db s db' s') (hi : RInv db s) {decs : List Lit} (hd : DecIn s decs) : DecIn s' decs := by
  induction h with
  | refl => exact hd
  | cons h t ih => exact ih ((PSteps.one h).allR hi).1 (h.decIn hi.inv hd)

theorem DecIn.assignDecision {db : Cdb} {s : Stk} (hi : Inv db s) {decs : List Lit} (hd : DecIn s decs) {l : Lit} (hn : s.assign l.var = none) :
    DecIn (s.assignDecision l) (decs ++ [l]) := by
  intro m hm h1 h2
  have hm : m ∈ s.trail ++ [l] := hm
  rcases List.mem_append.1 hm with hm | hm
  · have hne : m.var ≠ l.var := fun e => tr_assigned (hi.tv m hm) (by rw [e]; exact hn)
    have h1 : 0 < upd s.level l.var (s.dl + 1) m.var := h1
    have h2 : (upd s.reason l.var (.decision (s.dl + 1)) m.var).implied = false := h2
    rw [upd_of_ne _ _ hne] at h1 h2
    exact List.mem_append_left _ (hd m hm h1 h2)
  · exact List.mem_append_right _ hm

/-! ## the analysis -/

theorem sweep_agree {db : Cdb} {s : Stk} (hi : Inv db s) {decs : List Lit} (hd : DecIn s decs) {D : Lit → Prop} (hD : Mod db s D) {k0 : Nat}
    (hroot : ∀ l ∈ s.trail.take k0, s.level l.var = 0) (hup : ∀ l ∈ s.trail.drop k0, 0 < s.level l.var) :
    ∀ {ls : List Lit} {seen : Nat → Bool} {vec : Cls} {post : List Lit}, s.trail.drop k0 = ls.reverse ++ post →
      sandboxSweep db s decs ls seen = some vec → (∀ x ∈ vec, D x.neg) → ∀ l ∈ ls, seen l.var = true → Agree s D l.var
  | [], seen, vec, post, _, _, _, l, hl, _ => by simp at hl
  | t :: ls, seen, vec, post, hsp, h, hv, l, hl, hs => by
    have hsp' : s.trail.drop k0 = ls.reverse ++ (t :: post) := by rw [hsp]; simp
    have htr : s.trail = (s.trail.take k0 ++ ls.reverse) ++ t :: post := by
      conv_lhs => rw [← List.take_append_drop k0 s.trail, hsp']
      simp
    have htm : t ∈ s.trail.drop k0 := by rw [hsp']; simp
    unfold sandboxSweep at h
    by_cases hst : seen t.var = true
    · rw [if_pos hst] at h
      simp only [] at h
      -- the rest of the sweep with the extended table
      have key : ∀ seen' vec', (∀ v, seen v = true → seen' v = true) → sandboxSweep db s decs ls seen' = some vec' →
          vec = (if t ∈ decs then [t.neg] else []) ++ vec' →
          ((∀ q, (∃ m, m.var = q ∧ s.Before (s.trail.take k0 ++ ls.reverse) m) → seen' q = true → Agree s D q) → Agree s D t.var) →
          Agree s D l.var := by
        intro seen' vec' hm hsw hvec hag
        have ih : ∀ x ∈ ls, seen' x.var = true → Agree s D x.var := fun x hx hsx =>
          sweep_agree hi hd hD hroot hup hsp' hsw (fun y hy => hv y (by rw [hvec]; simp [hy])) x hx hsx
        have hag' := hag (by
          rintro q ⟨m, rfl, hb⟩ hsq
          rcases hb.2 with hm' | hm'
          · rcases List.mem_append.1 hm' with h1 | h1
            · exact hD.agree_root (tr_assigned hb.1) (hroot m h1)
            · exact ih m (by simpa using h1) hsq
          · exact hD.agree_root (tr_assigned hb.1) (hi.arch _ (tr_assigned hb.1) hm'))
        rcases List.mem_cons.1 hl with rfl | hl
        · exact hag'
        · exact ih l hl (hm _ hs)
      have hrs := hi.rs _ _ _ htr
      have httr : s.tr t := hi.tv t (by rw [htr]; simp)
      cases hr : s.reason t.var with
      | none => rw [hr] at h; simp at h
      | decision n =>
        rw [hr] at h
        simp only [Option.map_eq_some_iff] at h
        obtain ⟨vec', hsw, rfl⟩ := h
        refine key seen vec' (fun _ h => h) hsw rfl fun _ => ?_
        have htd : t ∈ decs := hd t (by rw [htr]; simp) (hup t htm) (by rw [hr]; rfl)
        have := hv t.neg (by simp [htd])
        exact agree_of_sat httr (by simpa using this)
      | binary m =>
        rw [hr] at h
        simp only [Option.map_eq_some_iff] at h
        obtain ⟨vec', hsw, rfl⟩ := h
        refine key _ vec' (fun v h => ?_) hsw rfl fun hq => ?_
        · simp only [upd_apply]; split
          · rfl
          · exact h
        · refine reason_forces hD hrs httr (by rw [hr]; rfl) fun q hqm => hq q.var (antecedent_before hrs hqm) ?_
          rw [hr] at hqm; simp [antecedents] at hqm; subst hqm; simp
      | impl cid =>
        rw [hr] at h
        simp only [Option.map_eq_some_iff] at h
        obtain ⟨vec', hsw, rfl⟩ := h
        refine key _ vec' (fun v h => ?_) hsw rfl fun hq => ?_
        · simp [h]
        · refine reason_forces hD hrs httr (by rw [hr]; rfl) fun q hqm => hq q.var (antecedent_before hrs hqm) ?_
          rw [hr] at hqm
          simp only [antecedents] at hqm
          simp only [Bool.or_eq_true, decide_eq_true_eq]
          right; exact List.mem_map_of_mem hqm
    · rw [if_neg hst] at h
      rcases List.mem_cons.1 hl with rfl | hl
      · exact absurd hs hst
      · exact sweep_agree hi hd hD hroot hup hsp' h hv l hl hs

theorem sweep_sub {db : Cdb} {s : Stk} {decs : List Lit} : ∀ {ls : List Lit} {seen : Nat → Bool} {vec : Cls},
    sandboxSweep db s decs ls seen = some vec → (∀ x ∈ vec, x.neg ∈ decs) ∧ (vec.map Lit.var).Sublist (ls.map Lit.var)
  | [], seen, vec, h => by unfold sandboxSweep at h; cases h; simp
  | t :: ls, seen, vec, h => by
    have key : ∀ seen' vec', sandboxSweep db s decs ls seen' = some vec' → vec = (if t ∈ decs then [t.neg] else []) ++ vec' →
        (∀ x ∈ vec, x.neg ∈ decs) ∧ (vec.map Lit.var).Sublist ((t :: ls).map Lit.var) := by
      intro seen' vec' hsw hvec
      obtain ⟨i1, i2⟩ := sweep_sub hsw
      subst hvec
      by_cases ht : t ∈ decs
      · simp only [ht, if_true, List.singleton_append]
        refine ⟨fun x hx => ?_, by simpa using i2⟩
        rcases List.mem_cons.1 hx with rfl | hx
        · simpa using ht
        · exact i1 x hx
      · simp only [ht, if_false, List.nil_append]
        exact ⟨i1, by simp only [List.map_cons]; exact i2.cons _⟩
    unfold sandboxSweep at h
    split at h
    · simp only [] at h
      split at h
      · simp only [Option.map_eq_some_iff] at h; obtain ⟨v, h1, rfl⟩ := h; exact key _ v h1 rfl
      · simp only [Option.map_eq_some_iff] at h; obtain ⟨v, h1, rfl⟩ := h; exact key _ v h1 rfl
      · simp only [Option.map_eq_some_iff] at h; obtain ⟨v, h1, rfl⟩ := h; exact key _ v h1 rfl
      · simp at h
    · obtain ⟨i1, i2⟩ := sweep_sub h
      exact ⟨i1, by simp only [List.map_cons]; exact i2.cons _⟩

/-- The result of `analyze_sandbox`: no model falsifies it. -/
theorem analyzeSandbox_spec {db : Cdb} {s : Stk} (hi : Inv db s) (hl : s.lim ≠ []) {decs : List Lit} (hd : DecIn s decs) {l : Lit} {r : Reason}
    (hc : ConfOK db s l r) {conf : Cls} (hcl : l.var ∈ conf.map Lit.var) (hca : ∀ q ∈ antecedents db r, q.var ∈ conf.map Lit.var) {vec : Cls}
    (h : analyzeSandbox db s decs conf = some vec) :
    (∀ D, Mod db s D → (∀ x ∈ vec, D x.neg) → False) ∧ (∀ x ∈ vec, x.neg ∈ decs) ∧ (vec.map Lit.var).Nodup := by
  unfold analyzeSandbox at h
  have hk : s.lim[0]? = some (s.lim.getD 0 0) := getD_some (by cases hs : s.lim <;> simp_all)
  set k0 := s.lim.getD 0 0 with hk0
  obtain ⟨s1, s2⟩ := sweep_sub h
  refine ⟨fun D hD hv => ?_, s1, ?_⟩
  · have ag : ∀ m, s.tr m → m.var ∈ conf.map Lit.var → Agree s D m.var := by
      intro m hm hv'
      by_cases hmt : m ∈ s.trail
      · rw [← List.take_append_drop k0 s.trail] at hmt
        rcases List.mem_append.1 hmt with h1 | h1
        · exact hD.agree_root (tr_assigned hm) (by have := Inv.level_take hi hk h1; omega)
        · refine sweep_agree (k0 := k0) (post := []) hi hd hD (fun l hl => by have := Inv.level_take hi hk hl; omega)
            (fun l hl => by have := Inv.level_drop hi hk hl; omega) (by simp) h hv m (by simpa using h1) (by simpa using hv')
      · exact hD.agree_root (tr_assigned hm) (hi.arch _ (tr_assigned hm) fun hmv => hmt (hi.mem_of_var hm hmv))
    have hcs := conf_sign hc
    refine conf_false hD hc ?_ fun q hq => ?_
    · have := ag l.neg hcs.2.1 (by simpa using hcl)
      simpa using this
    · have hqa := hcs.2.2 q hq
      obtain ⟨x, hx⟩ := tr_of_assign hqa
      exact ag ⟨q.var, x⟩ hx (hca q hq)
  · refine s2.nodup ?_
    rw [List.map_reverse, List.nodup_reverse]
    exact hi.nd.sublist ((List.drop_sublist _ _).map _)

/-! ## one target -/

/-- What the decisions on the literals of the target `c` may lead to. -/
def VDec.Good (k r : Bool) (db : Cdb) (s : Stk) (c : Cls) : VDec → Prop
  | .done db' s' => Tr k r db s db' s'
  | .conflict db' s' decs l rs => Tr k r db s db' s' ∧ ConfOK db' s' l rs ∧ DecIn s' decs ∧ (∀ x ∈ decs, x.neg ∈ c) ∧ s'.lim ≠ []
  | _ => True

theorem VDec.Good.after {k r : Bool} {db : Cdb} {s : Stk} {db1 : Cdb} {s1 : Stk} {c : Cls} (h : Tr k r db s db1 s1) {v : VDec} (hg : v.Good k r db1 s1 c) :
    v.Good k r db s c := by
  cases v with
  | done => exact h.trans hg
  | conflict => exact ⟨h.trans hg.1, hg.2⟩
  | _ => trivial

theorem vivDecide_good {k r : Bool} {c : Cls} : ∀ {ls : Cls} {decs : List Lit} {db : Cdb} {s : Stk}, (∀ x ∈ ls, x ∈ c) → RInv db s → DecIn s decs →
    (∀ x ∈ decs, x.neg ∈ c) → (∀ x ∈ c, Okv s x.var) → (vivDecide ls decs db s).Good k r db s c
  | [], decs, db, s, _, hi, _, _, _ => .refl hi
  | l :: ls, decs, db, s, hsub, hi, hd, hc, hok => by
    unfold vivDecide
    cases hv : s.val l with
    | some b =>
      cases b with
      | true => exact vivDecide_good (fun x hx => hsub x (by simp [hx])) hi hd hc hok
      | false => exact .refl hi
    | none =>
      have hn : s.assign l.neg.var = none := by rw [Lit.neg_var]; exact val_none.1 hv
      have t1 : Tr k r db s db (s.assignDecision l.neg) := Tr.assignDecision hi hn (fun _ => hok l (hsub l (by simp)))
      have hg := propagateSandbox_good t1.rinv
      have hd1 := hd.assignDecision hi.inv hn
      have hc1 : ∀ x ∈ decs ++ [l.neg], x.neg ∈ c := by
        intro x hx
        rcases List.mem_append.1 hx with hx | hx
        · exact hc x hx
        · simp at hx; subst hx; simpa using hsub l (by simp)
      simp only []
      cases hp : propagateSandbox db (s.assignDecision l.neg) with
      | ok db1 s1 =>
        rw [hp] at hg
        have t2 : Tr k r db (s.assignDecision l.neg) db1 s1 := hg.trn t1.rinv
        refine VDec.Good.after (t1.trans t2) (vivDecide_good (fun x hx => hsub x (by simp [hx])) t2.rinv (hg.decIn t1.rinv hd1) hc1 fun x hx => ?_)
        have tt := t1.trans t2
        exact tt.sp.okv.2 (hok x hx)
      | conflict db1 s1 cl rs =>
        rw [hp] at hg
        have hx := hg.1.allR t1.rinv
        refine ⟨t1.trans (hg.1.trn t1.rinv), hg.2, hg.1.decIn t1.rinv hd1, hc1, ?_⟩
        rw [hx.2.2.lim]; simp [assignDecision]
      | panic => trivial
      | fuel => trivial

theorem vivDecide_binary {db : Cdb} {s : Stk} (hi : RInv db s) {cid : Nat} {a b : Lit} (hc : (db.clause cid).lits = [a, b])
    {db' : Cdb} {s' : Stk} {decs : List Lit} {l : Lit} {rs : Reason} (h : vivDecide [a, b] [] db s = .conflict db' s' decs l rs) : decs.length ≤ 1 := by
  have one : ∀ x db s, vivDecide [x] [] db s = .conflict db' s' decs l rs → decs.length ≤ 1 := by
    intro x db s h
    unfold vivDecide at h
    cases hv : s.val x with
    | some v => cases v <;> rw [hv] at h <;> simp [vivDecide] at h
    | none =>
      rw [hv] at h; simp only [] at h
      cases hp : propagateSandbox db (s.assignDecision x.neg) with
      | ok => rw [hp] at h; simp [vivDecide] at h
      | conflict => rw [hp] at h; simp at h; rw [← h.2.2.1]; simp
      | _ => rw [hp] at h; simp at h
  unfold vivDecide at h
  cases hv : s.val a with
  | some v =>
    cases v with
    | true => rw [hv] at h; exact one b db s h
    | false => rw [hv] at h; simp at h
  | none =>
    have hn : s.assign a.neg.var = none := by rw [Lit.neg_var]; exact val_none.1 hv
    rw [hv] at h; simp only [] at h
    cases hp : propagateSandbox db (s.assignDecision a.neg) with
    | ok db1 s1 =>
      rw [hp] at h; simp only [] at h
      have hi1 : RInv db (s.assignDecision a.neg) := ⟨hi.wf, hi.inv.assignDecision hn⟩
      obtain ⟨-, hb, -⟩ := propagateSandbox_complete hi1 hp
      have hg := propagateSandbox_good hi1
      rw [hp] at hg
      have hx := (hg.allR hi1).2.2
      have : s1.tr b := by
        refine hb s.trail.length a.neg hi.inv.qh (getElem?_ext hx ?_) (b, cid) ?_
        · simp [assignDecision]
        · rw [Lit.neg_neg]; exact (hi.wf.bIff a b cid).2 (.inl hc)
      unfold vivDecide at h
      rw [val_true.2 this] at h
      simp [vivDecide] at h
    | conflict => rw [hp] at h; simp at h; rw [← h.2.2.1]; simp
    | _ => rw [hp] at h; simp at h

theorem vivDecide_same : ∀ {ls : Cls} {decs : List Lit} {db : Cdb} {s : Stk} {db' : Cdb} {s' : Stk} {decs' : List Lit} {l : Lit} {rs : Reason}, RInv db s →
    vivDecide ls decs db s = .conflict db' s' decs' l rs → Cdb.Same db db'
  | [], decs, db, s, db', s', decs', l, rs, _, h => by simp [vivDecide] at h
  | x :: ls, decs, db, s, db', s', decs', l, rs, hi, h => by
    unfold vivDecide at h
    cases hv : s.val x with
    | some b =>
      cases b with
      | true => rw [hv] at h; exact vivDecide_same hi h
      | false => rw [hv] at h; simp at h
    | none =>
      have hn : s.assign x.neg.var = none := by rw [Lit.neg_var]; exact val_none.1 hv
      rw [hv] at h; simp only [] at h
      have hi1 : RInv db (s.assignDecision x.neg) := ⟨hi.wf, hi.inv.assignDecision hn⟩
      have hg := propagateSandbox_good hi1
      cases hp : propagateSandbox db (s.assignDecision x.neg) with
      | ok db1 s1 =>
        rw [hp] at h hg; simp only [] at h
        have hx := hg.allR hi1
        exact hx.2.1.trans (vivDecide_same hx.1 h)
      | conflict db1 s1 cl rs =>
        rw [hp] at h hg; simp at h
        obtain ⟨rfl, -⟩ := h
        exact (hg.1.allR hi1).2.1
      | _ => rw [hp] at h; simp at h

theorem mod_backtrack {db : Cdb} {s : Stk} (hi : RInv db s) {D : Lit → Prop} (h : Mod db s.backtrackSandbox D) : Mod db s D :=
  ⟨h.cl, h.conf, fun l h1 h2 => have := (Tr.backtrackSandbox (k := true) (r := true) hi).root l ⟨h1, h2⟩; h.root l this.1 this.2⟩

theorem backtrackSandbox_lim (s : Stk) : s.backtrackSandbox.lim = [] := by
  by_cases hl : s.lim = []
  · simp [Stk.backtrackSandbox, hl]
  · have := (backtrackSandbox_cut hl).1.lm; rw [this]; simp

theorem rg_vivOne {r : Bool} {x : DS} {cid : Nat} (hi : RInv x.1 x.2) (hd : Dom x.1 x.2) :
    RG true r x.1 x.2 id (fun _ => True) (vivOne x cid) := by
  unfold vivOne
  have t0 : Tr true r x.1 x.2 x.1 x.2.backtrackSandbox := Tr.backtrackSandbox hi
  refine RG.after t0 ?_
  refine (rg_propRemains (x := (x.1, x.2.backtrackSandbox)) t0.rinv (backtrackSandbox_lim _)).bind fun y ty hy => ?_
  have hdy : Dom y.1 y.2 := ty.dom (t0.dom hd)
  have hiy : RInv y.1 y.2 := ty.rinv
  simp only [id]
  split
  · exact ⟨.refl hiy, trivial⟩
  rename_i hdead
  have hne : (y.1.clause cid).lits ≠ [] := by simpa [Cl.dead] using hdead
  have hdec0 : DecIn y.2 [] := by
    intro l hl h1; have := hiy.inv.level_root hy (tr_assigned (hiy.inv.tv l hl)); omega
  have hg := vivDecide_good (k := true) (r := r) (c := (y.1.clause cid).lits) (ls := (y.1.clause cid).lits) (fun _ h => h) hiy hdec0
    (by simp) (fun x hx => hdy.cl cid x hx)
  cases hv : vivDecide (y.1.clause cid).lits [] y.1 y.2 with
  | done db s => rw [hv] at hg; exact ⟨hg, trivial⟩
  | panic => trivial
  | fuel => trivial
  | conflict db s decs l rs =>
    rw [hv] at hg
    obtain ⟨t1, hco, hde, hdc, hlim⟩ := hg
    simp only []
    have t2 : Tr true r db s db s.backtrackSandbox := Tr.backtrackSandbox t1.rinv
    cases hcf : vivConflicting db cid (y.1.clause cid).lits decs l rs with
    | none => trivial
    | some o =>
      cases o with
      | none => exact ⟨t1.trans t2, trivial⟩
      | some conf =>
        simp only []
        have hconf : l.var ∈ conf.map Lit.var ∧ ∀ q ∈ antecedents db rs, q.var ∈ conf.map Lit.var := by
          unfold vivConflicting at hcf
          cases rs with
          | binary m =>
            simp only [] at hcf; split at hcf
            · simp at hcf
            · simp at hcf; subst hcf; simp [antecedents]
          | impl ci =>
            simp only [] at hcf; split at hcf
            · simp at hcf
            · simp at hcf; subst hcf
              obtain ⟨⟨rest, e⟩, -⟩ := hco
              rw [e]; refine ⟨by simp, fun q hq => ?_⟩
              simp only [antecedents] at hq; rw [e] at hq
              exact List.mem_map_of_mem (List.mem_cons_of_mem _ hq)
          | _ => simp at hcf
        cases ha : analyzeSandbox db s decs conf with
        | none => trivial
        | some vec =>
          simp only []
          obtain ⟨a1, a2, a3⟩ := analyzeSandbox_spec t1.rinv.inv hlim hde hco hconf.1 hconf.2 ha
          have hsub : ∀ x ∈ vec, x ∈ (y.1.clause cid).lits := fun x hx => by simpa using hdc _ (a2 x hx)
          have hrup : ∀ D, MC db s.backtrackSandbox D → (∀ x ∈ vec, D x.neg) → False := fun D hD hx => a1 D (mod_backtrack t1.rinv hD.1) hx
          have tt := t1.trans t2
          have hok : ∀ x ∈ vec, Okv s.backtrackSandbox x.var := fun x hx => tt.sp.okv.2 (hdy.cl cid x (hsub x hx))
          have hsame := vivDecide_same hiy hv
          refine RG.after tt ?_
          unfold vivApply
          split
          · exact .now rfl fun D hD => hrup D hD (by simp)
          · exact (rg_unit t2.rinv (backtrackSandbox_lim _) (fun D hD hn => hrup D hD (by simpa using hn)) (fun _ => hok _ (by simp))).mono fun _ _ _ => trivial
          · rename_i hv0 hv1
            have h2 : 2 ≤ vec.length := by
              match vec, hv0, hv1 with
              | [], h, _ => exact absurd rfl h
              | [l], _, h => exact absurd rfl (h l)
              | _ :: _ :: _, _, _ => simp
            have h3 : 3 ≤ (y.1.clause cid).lits.length := by
              by_contra hlt
              have h2' := hiy.wf.len2 cid hne
              match hl : (y.1.clause cid).lits, h2' with
              | [a, b], _ =>
                rw [hl] at hv
                have := vivDecide_binary hiy hl hv
                have hle : vec.length ≤ decs.length := by
                  have : (vec.map Lit.neg).Nodup := by
                    have : (vec.map Lit.neg).map Lit.var = vec.map Lit.var := by simp [List.map_map, Function.comp_def]
                    exact List.Nodup.of_map Lit.var (by rw [this]; exact a3)
                  have := (this.subperm (fun x hx => by obtain ⟨y, hy, rfl⟩ := List.mem_map.1 hx; exact a2 y hy)).length_le
                  simpa using this
                omega
              | _ :: _ :: _ :: _, _ => rw [hl] at hlt; simp at hlt
            cases hn : db.newClause s.backtrackSandbox.level vec (y.1.clause cid).learnt with
            | none => trivial
            | some o =>
              obtain ⟨db1, rf⟩ := o
              simp only []
              obtain ⟨t3, j, hj, -⟩ := Tr.add (k := true) (r := r) t2.rinv a3 hn hrup (fun _ => hok)
              refine RG.after t3 ?_
              unfold Cdb.removeRes
              cases hr : db1.removeClause cid with
              | none => trivial
              | some db2 =>
                have hlen : (db.clause cid).lits.length = (y.1.clause cid).lits.length := (hsame.perm cid).length_eq
                have hne1 : (db.clause cid).lits ≠ [] := by intro e; rw [e] at hlen; simp at hlen; omega
                have hcid : db1.clause cid = db.clause cid := hj.keep cid hne1
                have hjc : j ≠ cid := by
                  rintro rfl
                  rcases hj.fresh with e | ⟨-, -, e⟩
                  · exact hne1 e
                  · omega
                have hsub1 : ∀ x ∈ (db1.clause j).lits, x ∈ (db1.clause cid).lits := by
                  intro x hx; rw [hcid]; exact (hsame.mem cid x).2 (hsub x ((hj.mem x).1 hx))
                refine ⟨Tr.remove t3.rinv (backtrackSandbox_lim _) hr (fun hp => .inr ⟨j, hjc, hj.ne, hj.prim ?_, hsub1⟩) (fun _ => .inr ⟨j, hjc, hj.ne, hsub1⟩), trivial⟩
                rcases hp with hp | hp
                · left; rw [hcid] at hp; rw [← hsame.learnt]; exact hp
                · rw [hcid] at hp; omega

theorem rg_vivLoop {r : Bool} : ∀ {cids : List Nat} {x : DS}, RInv x.1 x.2 → Dom x.1 x.2 →
    RG true r x.1 x.2 id (fun _ => True) (vivLoop cids x)
  | [], x, hi, _ => ⟨.refl hi, trivial⟩
  | cid :: cids, x, hi, hd => by
    unfold vivLoop
    exact (rg_vivOne hi hd).bind fun y ty _ => rg_vivLoop ty.rinv (ty.dom hd)

theorem rg_vivify {r : Bool} {targets : List Nat} {x : DS} (hi : RInv x.1 x.2) (hl : x.2.lim = []) (hd : Dom x.1 x.2) :
    RG true r x.1 x.2 id (fun y => y.2.lim = []) (vivify targets x) := by
  unfold vivify
  refine (rg_propRemains hi hl).bind fun y ty hy => ?_
  split
  · exact ⟨.refl ty.rinv, hy⟩
  · refine (rg_vivLoop ty.rinv (ty.dom hd)).bind fun z tz _ => ?_
    have t0 : Tr true r z.1 z.2 z.1 z.2.backtrackSandbox := Tr.backtrackSandbox tz.rinv
    refine RG.after t0 ?_
    refine (rg_propRemains (x := (z.1, z.2.backtrackSandbox)) t0.rinv (backtrackSandbox_lim _)).bind fun u tu hu => ?_
    exact rg_clearAsserted tu.rinv hu (tu.dom (t0.dom (tz.dom (ty.dom hd))))

end Splr
