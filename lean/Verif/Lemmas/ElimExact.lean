import Verif.Lemmas.ReachSpec
/-! The occurrence lists contain nothing else. -/
namespace Splr
open Stk

/-- The occurrence list of an undecided literal of a variable that was not given up has no duplicates, and holds only clauses with
the literal. -/
def Exact (e : El) (db : Cdb) (s : Stk) : Prop :=
  ∀ l : Lit, s.assign l.var = none → e.aborted l.var = false → (e.occ l).Nodup ∧ ∀ i ∈ e.occ l, l ∈ (db.clause i).lits

theorem Exact.mono {e : El} {db db' : Cdb} {s s' : Stk} (h : Exact e db s)
    (hc : ∀ i, ∀ l ∈ (db.clause i).lits, s'.assign l.var = none → l ∈ (db'.clause i).lits)
    (ha : ∀ v, s.assign v ≠ none → s'.assign v ≠ none) : Exact e db' s' := by
  intro l hn hab
  have hn0 : s.assign l.var = none := by by_contra hne; exact ha _ hne hn
  obtain ⟨h1, h2⟩ := h l hn0 hab
  exact ⟨h1, fun i hi => hc i l (h2 i hi) hn⟩

/-- One list shrinks. -/
theorem removeLit_occ (e : El) (l : Lit) (cid : Nat) (m : Lit) : ((e.removeLit l cid).occ m = e.occ m) ∨
    m = l ∧ e.aborted l.var = false ∧ (e.removeLit l cid).occ m = deleteUnstable (e.occ l) (· == cid) := by
  unfold El.removeLit
  split
  · exact .inl rfl
  · rename_i h
    rw [occ_setOcc]
    split
    · rename_i e'; exact .inr ⟨e', by simpa using h, rfl⟩
    · exact .inl rfl

theorem deleteUnstable_nodup {l : List Nat} {a : Nat} (h : l.Nodup) : (deleteUnstable l (· == a)).Nodup ∧ a ∉ deleteUnstable l (· == a) ∧
    ∀ i ∈ deleteUnstable l (· == a), i ∈ l := by
  have hp := C41_delete_unstable l (· == a)
  have he : l.eraseP (· == a) = l.erase a := List.erase_eq_eraseP' a l |>.symm
  rw [he] at hp
  refine ⟨hp.nodup_iff.2 (h.erase a), fun hm => ?_, fun i hi => List.erase_subset (hp.mem_iff.1 hi)⟩
  have := hp.mem_iff.1 hm
  rw [h.mem_erase_iff] at this
  exact this.1 rfl

/-- The clause leaves the lists. -/
theorem removeCid_exact (asg : Nat → Option Bool) (cid : Nat) (l : Lit) (hn : asg l.var = none) : ∀ (c : Cls) (e : El),
    e.aborted l.var = false → (e.occ l).Nodup →
    ((e.removeCid asg cid c).occ l).Nodup ∧ (∀ i ∈ (e.removeCid asg cid c).occ l, i ∈ e.occ l) ∧
      (l ∈ c ∨ cid ∉ e.occ l → cid ∉ (e.removeCid asg cid c).occ l)
  | [], e, _, hd => ⟨hd, fun _ h => h, by rintro (h | h); simp at h; exact h⟩
  | m :: c, e, hab, hd => by
    set e1 := if (asg m.var).isNone then e.removeLit m cid else e with he1
    have hab1 : e1.aborted l.var = false := by rw [he1]; split <;> simp [hab]
    have key : (e1.occ l).Nodup ∧ (∀ i ∈ e1.occ l, i ∈ e.occ l) ∧ (l = m ∨ cid ∉ e.occ l → cid ∉ e1.occ l) := by
      rw [he1]
      split
      · rename_i hm
        by_cases hlm : l = m
        · subst hlm
          have ho : (e.removeLit l cid).occ l = deleteUnstable (e.occ l) (· == cid) := by
            unfold El.removeLit; rw [hab]; simp [occ_setOcc]
          obtain ⟨a, b, c⟩ := deleteUnstable_nodup (a := cid) hd
          rw [ho]
          exact ⟨a, c, fun _ => b⟩
        · rcases removeLit_occ e m cid l with h | h
          · rw [h]; exact ⟨hd, fun _ h => h, fun h => h.elim (fun h => absurd h hlm) id⟩
          · exact absurd h.1 hlm
      · rename_i hm
        refine ⟨hd, fun _ h => h, ?_⟩
        rintro (rfl | h)
        · simp [hn] at hm
        · exact h
    obtain ⟨r1, r2, r3⟩ := removeCid_exact asg cid l hn c e1 hab1 key.1
    have hfold : e.removeCid asg cid (m :: c) = e1.removeCid asg cid c := rfl
    rw [hfold]
    refine ⟨r1, fun i hi => key.2.1 i (r2 i hi), ?_⟩
    rintro (h | h)
    · rcases List.mem_cons.1 h with h | h
      · exact r3 (.inr (key.2.2 (.inl h)))
      · exact r3 (.inl h)
    · exact r3 (.inr (key.2.2 (.inr h)))

theorem exact_drop {x : DS} {e : El} {cid : Nat} {y : DS × El} (hw : x.1.WF) (hne : (x.1.clause cid).lits ≠ []) (h : Exact e x.1 x.2)
    (hd : dropClause x e cid = .ok y) : Exact y.2 y.1.1 y.1.2 := by
  obtain ⟨y', hy, hdr, -⟩ := dropClause_spec (e := e) hw hne
  rw [hd] at hy; simp only [Res.ok.injEq] at hy; subst hy
  have hy2 : y.2 = e.removeCid x.2.assign cid (x.1.clause cid).lits := by
    unfold dropClause at hd
    simp only [] at hd
    cases hr : (x.1.setLinked cid false).removeRes x.2 cid with
    | ok z => rw [hr] at hd; simp only [Res.bind, Res.ok.injEq] at hd; rw [← hd]
    | _ => rw [hr] at hd; simp [Res.bind] at hd
  intro l hn hab
  rw [hdr.stk] at hn
  rw [hy2, (removeCid_spec _ _ _ _).1] at hab
  obtain ⟨h1, h2⟩ := h l hn hab
  obtain ⟨r1, r2, r3⟩ := removeCid_exact x.2.assign cid l hn (x.1.clause cid).lits e hab h1
  rw [hy2]
  refine ⟨r1, fun i hi => ?_⟩
  by_cases ei : i = cid
  · subst ei
    exact absurd hi (r3 (.inl (h2 i (r2 i hi))))
  · rw [hdr.keep i ei]; exact h2 i (r2 i hi)

theorem addLit_occ (evo : Nat) (el : Nat → Bool) (cid : Nat) (e : El) (l m : Lit) :
    (e.addLit evo el cid l).occ m = e.occ m ∨ m = l ∧ (e.addLit evo el cid l).occ m = e.occ m ++ [cid] := by
  unfold El.addLit; split
  · exact .inl rfl
  split
  · exact .inl rfl
  rw [occ_setOcc]
  split
  · rename_i h; subst h; exact .inr ⟨rfl, rfl⟩
  · exact .inl rfl

theorem addLits_occ (evo : Nat) (el : Nat → Bool) (cid : Nat) (m : Lit) : ∀ (c : Cls) (e : El), c.Nodup →
    (c.foldl (El.addLit evo el cid) e).occ m = e.occ m ∨ m ∈ c ∧ (c.foldl (El.addLit evo el cid) e).occ m = e.occ m ++ [cid]
  | [], e, _ => .inl rfl
  | l :: c, e, hd => by
    rw [List.nodup_cons] at hd
    simp only [List.foldl_cons]
    rcases addLits_occ evo el cid m c (e.addLit evo el cid l) hd.2 with h | ⟨hm, h⟩
    · rw [h]
      rcases addLit_occ evo el cid e l m with h' | ⟨rfl, h'⟩
      · exact .inl h'
      · exact .inr ⟨by simp, h'⟩
    · have hml : m ≠ l := by rintro rfl; exact hd.1 hm
      rcases addLit_occ evo el cid e l m with h' | ⟨h', -⟩
      · rw [h'] at h; exact .inr ⟨by simp [hm], h⟩
      · exact absurd h' hml

/-- Linking a clause that is in no list. -/
theorem exact_addCid {evo : Nat} {x : DS} {e : El} {cid : Nat} (hw : x.1.WF) (h : Exact e x.1 x.2)
    (hfr : ∀ l : Lit, x.2.assign l.var = none → e.aborted l.var = false → cid ∉ e.occ l) :
    Exact (addCid evo x e cid).2 (addCid evo x e cid).1.1 (addCid evo x e cid).1.2 := by
  have hf := flags_addCid evo x e cid
  intro l hn hab
  unfold addCid at hn hab ⊢
  split
  · rename_i hl; rw [if_pos hl] at hn hab; exact h l hn hab
  rename_i hl
  rw [if_neg hl] at hn hab
  simp only [] at hn hab ⊢
  have hab0 : e.aborted l.var = false := by
    cases ha : e.aborted l.var with
    | false => rfl
    | true => rw [(addLits_spec _ _ _ _ _).2.1 _ ha] at hab; exact absurd hab (by simp)
  obtain ⟨h1, h2⟩ := h l hn hab0
  have hlits : ∀ i, ((x.1.setLinked cid true).clause i).lits = (x.1.clause i).lits := (flags_setLinked x.1 cid true).lits
  rcases addLits_occ evo x.2.elim cid l (x.1.clause cid).lits e (List.Nodup.of_map _ (hw.nd cid)) with h' | ⟨hm, h'⟩
  · rw [h']; exact ⟨h1, fun i hi => by rw [hlits]; exact h2 i hi⟩
  · rw [h']
    refine ⟨List.Nodup.append h1 (by simp) (by simpa using hfr l hn hab0), fun i hi => ?_⟩
    rw [hlits]
    rcases List.mem_append.1 hi with hi | hi
    · exact h2 i hi
    · simp at hi; subst hi; exact hm

theorem exact_linkLoop {evo cnf : Nat} : ∀ {cids : List Nat} {y y' : DS × El}, linkLoop evo cnf cids y = .ok y' → y.1.1.WF → cids.Nodup →
    Exact y.2 y.1.1 y.1.2 → (∀ i ∈ cids, ∀ l : Lit, y.1.2.assign l.var = none → y.2.aborted l.var = false → i ∉ y.2.occ l) →
    Exact y'.2 y'.1.1 y'.1.2
  | [], y, y', e, _, _, h, _ => by simp only [linkLoop, Res.ok.injEq] at e; subst e; exact h
  | cid :: cids, y, y', e, hw, hnd, h, hno => by
    rw [List.nodup_cons] at hnd
    unfold linkLoop at e
    split at e
    · exact exact_linkLoop e hw hnd.2 h fun i hi => hno i (by simp [hi])
    split at e
    · simp at e
    have hf := flags_addCid evo y.1 y.2 cid
    have hs : (addCid evo y.1 y.2 cid).1.2 = y.1.2 := by unfold addCid; split <;> rfl
    refine exact_linkLoop e (hf.wf hw) hnd.2 (exact_addCid hw h (hno cid (by simp))) fun i hi l hn hab => ?_
    rw [hs] at hn
    have hab0 : y.2.aborted l.var = false := by
      cases ha : y.2.aborted l.var with
      | false => rfl
      | true =>
        unfold addCid at hab
        split at hab
        · rw [ha] at hab; exact hab
        · simp only [] at hab; rw [(addLits_spec _ _ _ _ _).2.1 _ ha] at hab; exact absurd hab (by simp)
    have h0 := hno i (by simp [hi]) l hn hab0
    have hne : i ≠ cid := by rintro rfl; exact hnd.1 hi
    unfold addCid
    split
    · exact h0
    · rcases addLits_occ evo y.1.2.elim cid l (y.1.1.clause cid).lits y.2 (List.Nodup.of_map _ (hw.nd cid)) with h' | ⟨-, h'⟩
      · rw [h']; exact h0
      · rw [h']; simp [h0, hne]

theorem exact_prepare {evo cnf : Nat} {x : DS} {y : DS × El} (hw : x.1.WF) (e : prepare true evo cnf x = .ok y) : Exact y.2 y.1.1 y.1.2 := by
  unfold prepare at e
  simp only [Bool.not_true, Bool.false_eq_true, if_false] at e
  cases hl : linkLoop evo cnf x.1.ids (x, El.new) with
  | ok z =>
    rw [hl] at e
    simp only [Res.bind] at e
    split at e
    · simp at e
    simp only [Res.ok.injEq] at e; subst e
    refine exact_linkLoop hl hw ?_ ?_ ?_
    · unfold Cdb.ids; exact (List.drop_sublist _ _).nodup List.nodup_range
    · intro l _ _; simp [El.new, El.occ]
    · intro i _ l _ _; simp [El.new, El.occ]
  | _ => rw [hl] at e; simp [Res.bind] at e

theorem exact_trySubsume {x : DS} {e : El} {cid did : Nat} {y : DS × El} (hw : x.1.WF) (hd : (x.1.clause did).lits ≠ []) (h : Exact e x.1 x.2)
    (hy : trySubsume x e cid did = .ok y) : Exact y.2 y.1.1 y.1.2 := by
  unfold trySubsume at hy
  split at hy
  swap
  · simp only [Res.ok.injEq] at hy; subst hy; exact h
  simp only [] at hy
  have hf : Cdb.Flags x.1 (if (x.1.clause did).learnt = true then x.1 else x.1.setC cid { x.1.clause cid with learnt := false }) := by
    split
    · exact .refl _
    · exact flags_setC rfl (by simp) rfl
  revert hy hf
  generalize (if (x.1.clause did).learnt = true then x.1 else x.1.setC cid { x.1.clause cid with learnt := false }) = db1
  intro hy hf
  refine exact_drop (x := (db1, x.2)) (hf.wf hw) (by show (db1.clause did).lits ≠ []; rw [hf.lits]; exact hd) ?_ hy
  exact h.mono (fun i l hl _ => by show l ∈ (db1.clause i).lits; rw [hf.lits]; exact hl) (fun _ h => h)

theorem assignRootRes_assigned {s : Stk} {db : Cdb} {l : Lit} {y : DS} (hl : s.lim = []) (e : s.assignRootRes db l = .ok y) :
    y.1 = db ∧ ∀ v, s.assign v ≠ none → y.2.assign v ≠ none := by
  have h1 : y.1 = db := by
    unfold Stk.assignRootRes at e
    split at e
    · simp only [Res.ok.injEq] at e; rw [← e]
    · simp at e
  refine ⟨h1, fun v hv => ?_⟩
  by_cases hw : v = l.var
  · subst hw
    unfold Stk.assignRootRes Stk.assignRoot at e
    rw [cancelUntil_noop (by unfold Stk.dl; rw [hl]; simp)] at e
    cases h : s.assign l.var with
    | none => exact absurd h hv
    | some x =>
      cases hx : (x == l.pos) <;> simp [h, hx] at e
      rw [← e]; simp [h]
  · rw [assignRootRes_other hl e hw]; exact hv

theorem exact_strengthen {x : DS} {e : El} {cid : Nat} {p : Lit} {y : DS × El} (hi : RInv x.1 x.2) (hl : x.2.lim = []) (h : Exact e x.1 x.2)
    (hp : p ∈ (x.1.clause cid).lits) (hroot : Root x.2 p.neg) (hy : strengthen x e cid p = .ok y) : Exact y.2 y.1.1 y.1.2 := by
  obtain ⟨db, s⟩ := x
  simp only [] at hi hl h hp hroot
  have hne : (db.clause cid).lits ≠ [] := List.ne_nil_of_mem hp
  have hpa : s.assign p.var ≠ none := by have := tr_assigned hroot.1; simpa using this
  obtain ⟨db1, rf, he, w, out, hk, -⟩ := Cdb.transformByElimination_spec hi.wf hp
  unfold strengthen at hy
  simp only [] at hy
  rw [he] at hy
  cases out with
  | clause h3 h' hc =>
    simp only [Res.ok.injEq] at hy; subst hy
    intro l hn hab
    rw [removeLit_aborted] at hab
    have hlp : l ≠ p := by rintro rfl; exact hpa hn
    have ho : (e.removeLit p cid).occ l = e.occ l := by
      rcases removeLit_occ e p cid l with h | h
      · exact h
      · exact absurd h.1 hlp
    obtain ⟨h1, h2⟩ := h l hn hab
    show ((e.removeLit p cid).occ l).Nodup ∧ ∀ i ∈ (e.removeLit p cid).occ l, l ∈ (db1.clause i).lits
    rw [ho]
    refine ⟨h1, fun i hi => ?_⟩
    by_cases ei : i = cid
    · subst ei; rw [h']; exact List.mem_filter.2 ⟨h2 i hi, by simpa using hlp⟩
    · rw [hk i ei]; exact h2 i hi
  | registered reg a b h3 hr h' h4 hc =>
    simp only [] at hy
    refine exact_drop (x := (db1, s)) w (by show (db1.clause cid).lits ≠ []; rw [h']; exact hne) ?_ hy
    refine h.mono (fun i l hl _ => ?_) (fun _ h => h)
    show l ∈ (db1.clause i).lits
    by_cases ei : i = cid
    · subst ei; rw [h']; exact hl
    · rw [hk i ei]; exact hl
  | unit a h3 h' hc =>
    simp only [] at hy
    have hw1 : (db1.log (.add [a])).WF := Cdb.wf_lits w (fun _ => ⟨rfl, rfl⟩) rfl rfl rfl rfl rfl
    have hne1 : (db1.clause cid).lits ≠ [] := by rw [h']; simp
    have hE : Exact e (db1.log (.add [a])) s := by
      refine h.mono (fun i l hl _ => ?_) (fun _ h => h)
      show l ∈ (db1.clause i).lits
      by_cases ei : i = cid
      · subst ei; rw [h']; rcases h3 with e | e <;> rw [e] at hl <;> simp at hl ⊢ <;> tauto
      · rw [hk i ei]; exact hl
    obtain ⟨z, hz, hzd, -⟩ := dropClause_spec (x := (db1.log (.add [a]), s)) (e := e) hw1 (cid := cid) hne1
    have hEz := exact_drop (x := (db1.log (.add [a]), s)) hw1 hne1 hE hz
    rw [hz] at hy
    simp only [Res.bind] at hy
    split at hy
    · cases hu : z.1.2.assignRootRes z.1.1 a with
      | ok u =>
        rw [hu] at hy
        simp only [Res.ok.injEq] at hy; subst hy
        obtain ⟨u1, u2⟩ := assignRootRes_assigned (by rw [hzd.stk]; exact hl) hu
        exact hEz.mono (fun i l hl _ => by rw [u1]; exact hl) u2
      | _ => rw [hu] at hy; simp at hy
    · simp only [Res.ok.injEq] at hy; subst hy; exact hEz
    · simp at hy

theorem exact_resolveOne {evo v : Nat} {p n : Nat} {y z : DS × El} (hw : y.1.1.WF) (hl : y.1.2.lim = []) (hp : (y.1.1.clause p).lits ≠ [])
    (hn : (y.1.1.clause n).lits ≠ []) (h : Exact y.2 y.1.1 y.1.2) (e : resolveOne evo v p n y = .ok z) : Exact z.2 z.1.1 z.1.2 := by
  have m := (mergeLits_spec (v := v) (hw.nd p) (hw.nd n) (hw.len2 p hp) (hw.len2 n hn)).2
  unfold resolveOne at e
  simp only [] at e
  revert e m
  generalize mergeLits v (y.1.1.clause p).lits (y.1.1.clause n).lits = vec
  intro e m
  split at e
  · simp only [Res.ok.injEq] at e; subst e; exact h
  · split at e
    · simp only [Res.ok.injEq] at e; subst e; exact h
    · simp at e
    · rename_i l _ _
      cases hu : y.1.2.assignRootRes (y.1.1.log (.add [l])) l with
      | ok u =>
        rw [hu] at e
        simp only [Res.bind, Res.ok.injEq] at e; subst e
        obtain ⟨u1, u2⟩ := assignRootRes_assigned hl hu
        exact h.mono (fun i l hl _ => by rw [u1]; exact hl) u2
      | _ => rw [hu] at e; simp [Res.bind] at e
  · rename_i hv0 hv1
    have hnd := (m hv0).2
    split at e
    · simp at e
    · rename_i db1 ci hnc
      simp only [Res.ok.injEq] at e; subst e
      obtain ⟨w, hs⟩ := Cdb.newClause_spec hw hnd hnc
      rcases hs with ⟨_, _, _, hr, -⟩ | ⟨cid, c, hr, -, -, hold, -, -, -, -, -, hcc, -⟩
      · simp at hr
      simp only [RefClause.clause.injEq] at hr
      subst hr
      have hold' : ∀ i, ∀ l ∈ (y.1.1.clause i).lits, l ∈ (db1.clause i).lits := by
        intro i l hl
        have hne : i ≠ ci := by rintro rfl; rw [hold] at hl; simp at hl
        rw [hcc, upd_of_ne _ _ hne]; exact hl
      refine exact_addCid (x := (db1, y.1.2)) w (h.mono (fun i l hl _ => hold' i l hl) (fun _ h => h)) fun l hn hab hm => ?_
      have := (h l hn hab).2 ci hm
      rw [hold] at this; simp at this
    · rename_i db1 rf hnr hnc
      simp only [Res.ok.injEq] at e; subst e
      obtain ⟨w, hs⟩ := Cdb.newClause_spec hw hnd hnc
      rcases hs with ⟨_, _, _, -, rfl, -⟩ | ⟨cid, _, hr, -⟩
      · exact h
      · exact absurd hr (hnr cid)

theorem exact_resolveAll {evo v : Nat} {db0 : Cdb} {e0 : El} (hw0 : db0.WF) : ∀ {ps : List (Nat × Nat)} {y z : DS × El},
    RInv y.1.1 y.1.2 → Dom y.1.1 y.1.2 → RKept db0 v e0 y → (∀ q ∈ ps, ⟨v, true⟩ ∈ (db0.clause q.1).lits ∧ ⟨v, false⟩ ∈ (db0.clause q.2).lits) →
    Exact y.2 y.1.1 y.1.2 → resolveAll evo v ps y = .ok z → Exact z.2 z.1.1 z.1.2
  | [], y, z, _, _, _, _, h, e => by simp only [resolveAll, Res.ok.injEq] at e; subst e; exact h
  | (p, n) :: ps, y, z, hi, hd, hk, hps, h, e => by
    unfold resolveAll at e
    have hpn := hps (p, n) (by simp)
    have h1 := rg_resolveOne (r := true) (evo := evo) hi hd hw0 hk hpn.1 hpn.2
    cases hro : resolveOne evo v p n y with
    | ok u =>
      rw [hro] at h1 e
      obtain ⟨t, hk1, -⟩ := h1
      refine exact_resolveAll hw0 t.rinv (t.dom hd) hk1 (fun q hq => hps q (by simp [hq])) (exact_resolveOne hi.wf hk.lim ?_ ?_ h hro) e
      · rw [(hk.keep p (List.ne_nil_of_mem hpn.1)).1]; exact List.ne_nil_of_mem hpn.1
      · rw [(hk.keep n (List.ne_nil_of_mem hpn.2)).1]; exact List.ne_nil_of_mem hpn.2
    | _ => rw [hro] at e; simp [Res.bind] at e

theorem exact_dropAll : ∀ {cids : List Nat} {y z : DS × El}, y.1.1.WF → Exact y.2 y.1.1 y.1.2 → dropAll cids y = .ok z → Exact z.2 z.1.1 z.1.2
  | [], y, z, _, h, e => by simp only [dropAll, Res.ok.injEq] at e; subst e; exact h
  | cid :: cids, y, z, hw, h, e => by
    unfold dropAll at e
    split at e
    · exact exact_dropAll hw h e
    · rename_i hd
      have hd : (y.1.1.clause cid).lits ≠ [] := by simpa [Cl.dead] using hd
      obtain ⟨u, hu, hdr, -⟩ := dropClause_spec (x := y.1) (e := y.2) hw hd
      rw [hu] at e
      exact exact_dropAll hdr.wf (exact_drop hw hd h hu) e

theorem exact_eliminateVar {evo v : Nat} {db : Cdb} {s : Stk} {e : El} {w : DS × El} (hi : RInv db s) (hdm : Dom db s) (hl : s.lim = [])
    (ho : OccInv e db s) (hn : s.assign v = none) (hab : e.aborted v = false) (h : Exact e db s)
    (hw : eliminateVar evo v (db, s) e = .ok w) : Exact w.2 w.1.1 w.1.2 := by
  unfold eliminateVar at hw
  simp only [] at hw
  set pos := (e.pos v).filter fun c => decide (⟨v, true⟩ ∈ (db.clause c).lits) with hpos
  set neg := (e.neg v).filter fun c => decide (⟨v, false⟩ ∈ (db.clause c).lits) with hneg
  set pl := pos.map fun c => (db.clause c).lits with hpl
  set nl := neg.map fun c => (db.clause c).lits with hnl
  set e1 : El := { e with pos := upd e.pos v pos, neg := upd e.neg v neg, lits := e.lits ++ elimClauses v pl nl } with he1
  have hp : ∀ i, i ∈ pos ↔ ⟨v, true⟩ ∈ (db.clause i).lits := by
    intro i; rw [hpos, List.mem_filter]
    refine ⟨fun h => by simpa using h.2, fun h => ⟨?_, by simpa using h⟩⟩
    have := ho i ⟨v, true⟩ h hab
    simpa [El.occ] using this
  have hng : ∀ i, i ∈ neg ↔ ⟨v, false⟩ ∈ (db.clause i).lits := by
    intro i; rw [hneg, List.mem_filter]
    refine ⟨fun h => by simpa using h.2, fun h => ⟨?_, by simpa using h⟩⟩
    have := ho i ⟨v, false⟩ h hab
    simpa [El.occ] using this
  have hocc : ∀ l : Lit, e1.occ l = (e.occ l).filter fun c => decide (l.var = v → l ∈ (db.clause c).lits) := by
    rintro ⟨w, b⟩
    by_cases ew : w = v
    · subst ew
      cases b <;> simp [El.occ, he1, hpos, hneg]
    · simp [El.occ, he1, upd_of_ne _ _ ew, ew]
  have ho1 : OccInv e1 db s := by
    intro i l hm hab'
    rw [hocc, List.mem_filter]
    exact ⟨ho i l hm hab', by simp [hm]⟩
  have hE1 : Exact e1 db s := by
    intro l hna hab'
    obtain ⟨a, b⟩ := h l hna hab'
    rw [hocc]
    exact ⟨a.filter _, fun i hi => b i (List.mem_filter.1 hi).1⟩
  have hk0 : RKept db v e1 ((db, s), e1) := ⟨hl, ho1, rfl, fun _ _ => ⟨rfl, rfl⟩, fun _ _ h _ => h, hn, fun _ _ => .inl rfl⟩
  have hps : ∀ q ∈ pos.flatMap fun p => neg.map fun n => (p, n), ⟨v, true⟩ ∈ (db.clause q.1).lits ∧ ⟨v, false⟩ ∈ (db.clause q.2).lits := by
    intro q hq
    obtain ⟨p, hpm, hq⟩ := List.mem_flatMap.1 hq
    obtain ⟨n, hnm, rfl⟩ := List.mem_map.1 hq
    exact ⟨(hp p).1 hpm, (hng n).1 hnm⟩
  have hra := rg_resolveAll (r := true) (evo := evo) hi.wf (y := ((db, s), e1)) hi hdm hk0 hps
  cases hr : resolveAll evo v (pos.flatMap fun p => neg.map fun n => (p, n)) ((db, s), e1) with
  | ok u =>
    rw [hr] at hra hw
    obtain ⟨t, hk, -⟩ := hra
    have hEu := exact_resolveAll (evo := evo) hi.wf (y := ((db, s), e1)) hi hdm hk0 hps hE1 hr
    simp only [Res.bind] at hw
    cases hz : dropAll (pos ++ neg) u with
    | ok z =>
      rw [hz] at hw
      simp only [Res.ok.injEq] at hw; subst hw
      have hEz := exact_dropAll t.rinv.wf hEu hz
      intro l hna hab'
      have ha : (z.1.2.makeEliminated v).assign = z.1.2.assign := by unfold Stk.makeEliminated; split <;> rfl
      simp only [] at hna hab' ⊢
      rw [ha] at hna
      obtain ⟨w, b⟩ := l
      by_cases ew : w = v
      · subst ew; cases b <;> simp [El.occ, El.clearVar]
      · have := hEz ⟨w, b⟩ hna (by simpa [El.clearVar, upd_of_ne _ _ ew] using hab')
        simpa [El.occ, El.clearVar, upd_of_ne _ _ ew] using this
    | _ => rw [hz] at hw; simp at hw
  | _ => rw [hr] at hw; simp [Res.bind] at hw

theorem exact_pureLoop {cnf : Nat} {e : El} : ∀ {n vi : Nat} {x x' : DS}, x.2.lim = [] → Exact e x.1 x.2 → pureLoop cnf e n vi x = .ok x' →
    Exact e x'.1 x'.2
  | 0, _, x, x', _, h, hx => by simp only [pureLoop, Res.ok.injEq] at hx; subst hx; exact h
  | n + 1, vi, x, x', hl, h, hx => by
    have step : ∀ l, (x.2.assignRootRes (x.1.log (.add [l])) l).bind (pureLoop cnf e n (vi + 1)) = .ok x' → Exact e x'.1 x'.2 := by
      intro l hx
      cases hu : x.2.assignRootRes (x.1.log (.add [l])) l with
      | ok u =>
        rw [hu] at hx
        obtain ⟨u1, u2⟩ := assignRootRes_assigned hl hu
        refine exact_pureLoop ?_ (h.mono (fun i l hl _ => by rw [u1]; exact hl) u2) hx
        unfold Stk.assignRootRes Stk.assignRoot at hu
        rw [cancelUntil_noop (by unfold Stk.dl; rw [hl]; simp)] at hu
        cases h : x.2.assign l.var with
        | none => simp [h] at hu; rw [← hu]; simp [makeAsserted, hl]
        | some b =>
          cases hb : (b == l.pos) <;> simp [h, hb] at hu
          rw [← hu]; exact hl
      | _ => rw [hu] at hx; simp [Res.bind] at hx
    unfold pureLoop at hx
    split at hx
    · exact exact_pureLoop hl h hx
    split at hx
    · simp at hx
    split at hx
    · exact exact_pureLoop hl h hx
    split at hx
    · exact step _ hx
    split at hx
    · exact step _ hx
    · exact exact_pureLoop hl h hx

theorem exact_runCmd {F : Form} {s0 : Stk} {recs : List Rec} {evo : Nat} {y z : DS × El} {c : ECmd} (hk : EOK F s0 recs y)
    (h : Exact y.2 y.1.1 y.1.2) (e : runCmd evo y c = .ok z) : Exact z.2 z.1.1 z.1.2 := by
  obtain ⟨recs', g, hb, hl, ho, hh, hs, hnv⟩ := hk
  cases c with
  | subsume cid did =>
    unfold runCmd at e
    simp only [] at e
    split at e
    · simp only [Res.ok.injEq] at e; subst e; exact h
    · rename_i hc
      simp only [not_or, Cl.dead, List.isEmpty_iff] at hc
      exact exact_trySubsume g.rinv.wf hc.2.2 h e
  | lifted l did =>
    unfold runCmd at e
    simp only [] at e
    split at e
    · simp only [Res.ok.injEq] at e; subst e; exact h
    · rename_i hc
      simp only [not_or, not_not] at hc
      unfold tryLifted at e
      split at e
      · rename_i hm
        have ht := g.rinv.inv.tv l hc.1
        exact exact_strengthen g.rinv hl h hm (by rw [Lit.neg_neg]; exact ⟨ht, g.rinv.inv.level_root hl (tr_assigned ht)⟩) e
      · simp only [Res.ok.injEq] at e; subst e; exact h
  | elimVar v =>
    unfold runCmd at e
    simp only [] at e
    split at e
    · simp only [Res.ok.injEq] at e; subst e; exact h
    · rename_i hc
      simp only [not_or, not_not, Bool.not_eq_true, not_lt] at hc
      exact exact_eliminateVar g.rinv g.dom hl ho hc.2.2.2.1 hc.2.2.2.2 h e
  | propagate =>
    unfold runCmd at e
    have hg := propagateSandbox_good g.rinv
    have hr := rg_propagate (k := false) (r := true) g.rinv hl
    simp only [] at e
    cases hp : propagateSandbox y.1.1 y.1.2 with
    | ok db' s' =>
      rw [hp] at hg hr e
      obtain ⟨t, hl'⟩ := hr
      simp only [PRes.toRes, Res.bind, Res.ok.injEq] at e
      subst e
      exact h.mono (fun i l hm _ => ((hg.allR g.rinv).2.1.mem i l).2 hm) (t.assigned g.rinv.inv hl)
    | _ => rw [hp] at e; simp [PRes.toRes, Res.bind] at e
  | retain v sift =>
    unfold runCmd at e
    cases e
    intro l hn hab
    obtain ⟨h1, h2⟩ := h l hn hab
    simp only []
    refine ⟨?_, fun i hi => h2 i (El.mem_keep.1 hi).1⟩
    rw [El.occ_keep]
    split
    · exact h1.filter _
    · exact h1

theorem Inner.exact {cfg : Cfg} {F : Form} {d : DS} {e : Option El} (h : Inner cfg F d e) : ∀ e', e = some e' → Exact e' d.1 d.2 := by
  induction h with
  | @prepare d y cnf h e ih =>
    rintro _ ⟨rfl⟩
    obtain ⟨_, -, _, g, -⟩ := h.ok
    exact exact_prepare g.rinv.wf e
  | @pure x x1 x2 x3 y targets h e1 e2 e3 e4 =>
    rintro _ ⟨rfl⟩
    have h2 : Inner cfg F x2 none := .propagate (.vivify (.built h) e1) e2
    obtain ⟨_, -, _, g, hl, hu⟩ := h2.ok
    obtain ⟨p1, -⟩ := prepare_spec g.rinv.wf g.dom hu e3
    exact exact_pureLoop (by rw [p1]; exact hl) (exact_prepare g.rinv.wf e3) e4
  | @command d e y c h e' ih =>
    rintro _ ⟨rfl⟩
    obtain ⟨F', -, recs, s0, h1⟩ := h.ok
    exact exact_runCmd h1 (ih _ rfl) e'
  | _ => intro e' h'; simp at h'

end Splr
