import Verif.Lemmas.Glob
import Verif.Props.Misc
/-! The eliminator: occurrence lists, subsumption, strengthening. -/
namespace Splr
open Stk

/-! ## occurrence lists -/

/-- Every clause is found in the occurrence list of each of its literals (unless its variable was given up). -/
def OccInv (e : El) (db : Cdb) (_ : Stk) : Prop :=
  ∀ i, ∀ l ∈ (db.clause i).lits, e.aborted l.var = false → i ∈ e.occ l

theorem El.occ_keep (e : El) (v : Nat) (p : Lit → Nat → Bool) (l : Lit) :
    (e.keep v p).occ l = if l.var = v then (e.occ l).filter (p l) else e.occ l := by
  obtain ⟨u, b⟩ := l
  unfold El.occ El.keep
  by_cases h : u = v
  · subst h; cases b <;> simp [upd]
  · cases b <;> simp [upd, h]

theorem El.mem_keep {e : El} {v : Nat} {p : Lit → Nat → Bool} {l : Lit} {i : Nat} :
    i ∈ (e.keep v p).occ l ↔ i ∈ e.occ l ∧ (l.var = v → p l i = true) := by
  rw [El.occ_keep]
  split
  · rename_i h; simp [h]
  · rename_i h; simp [h]

theorem OccInv.keep {e : El} {db : Cdb} {s : Stk} (h : OccInv e db s) (v : Nat) (sift : Bool) :
    OccInv (e.keep v fun l c => if sift then decide (l ∈ (db.clause c).lits) else !(db.clause c).dead) db s := by
  intro i l hl hab
  refine El.mem_keep.2 ⟨h i l hl hab, fun _ => ?_⟩
  split
  · simpa using hl
  · simp only [Cl.dead, Bool.not_eq_true', List.isEmpty_eq_false_iff]
    exact List.ne_nil_of_mem hl

theorem OccInv.mono {e : El} {db db' : Cdb} {s s' : Stk} (h : OccInv e db s) (hc : ∀ i, ∀ l ∈ (db'.clause i).lits, l ∈ (db.clause i).lits)
    (ha : ∀ v, s.assign v ≠ none → s'.assign v ≠ none) : OccInv e db' s' := by
  intro i l hl hab
  exact h i l (hc i l hl) hab

theorem Tr.assigned {k r : Bool} {db : Cdb} {s : Stk} {db' : Cdb} {s' : Stk} (t : Tr k r db s db' s') (hi : Inv db s) (hl : s.lim = []) :
    ∀ v, s.assign v ≠ none → s'.assign v ≠ none := by
  intro v hv
  obtain ⟨b, hb⟩ := tr_of_assign hv
  exact tr_assigned (l := ⟨v, b⟩) (t.root _ ⟨hb, hi.level_root hl (tr_assigned hb)⟩).1

@[simp] theorem setOcc_aborted (e : El) (l : Lit) (o : List Nat) : (e.setOcc l o).aborted = e.aborted := by unfold El.setOcc; split <;> rfl
@[simp] theorem setOcc_lits (e : El) (l : Lit) (o : List Nat) : (e.setOcc l o).lits = e.lits := by unfold El.setOcc; split <;> rfl

theorem occ_setOcc (e : El) (l : Lit) (o : List Nat) (m : Lit) : (e.setOcc l o).occ m = if m = l then o else e.occ m := by
  obtain ⟨v, b⟩ := l; obtain ⟨w, c⟩ := m
  unfold El.setOcc El.occ
  cases b <;> cases c <;> simp [upd_apply]

theorem mem_deleteUnstable {l : List Nat} {p : Nat → Bool} {a : Nat} (h : a ∈ l) (hp : p a = false) : a ∈ deleteUnstable l p :=
  (C41_delete_unstable l p).mem_iff.2 ((List.mem_eraseP_of_neg (by simp [hp])).2 h)

@[simp] theorem removeLit_aborted (e : El) (l : Lit) (cid : Nat) : (e.removeLit l cid).aborted = e.aborted := by
  unfold El.removeLit; split <;> simp
@[simp] theorem removeLit_lits (e : El) (l : Lit) (cid : Nat) : (e.removeLit l cid).lits = e.lits := by
  unfold El.removeLit; split <;> simp

theorem mem_removeLit {e : El} {l m : Lit} {cid i : Nat} (h : i ∈ e.occ m) (hne : i ≠ cid ∨ m ≠ l) : i ∈ (e.removeLit l cid).occ m := by
  unfold El.removeLit
  split
  · exact h
  · rw [occ_setOcc]
    split
    · rename_i e; subst e
      rcases hne with hne | hne
      · exact mem_deleteUnstable h (by simpa using hne)
      · exact absurd rfl hne
    · exact h

theorem removeCid_spec (asg : Nat → Option Bool) (cid : Nat) : ∀ (c : Cls) (e : El), (e.removeCid asg cid c).aborted = e.aborted ∧
    (e.removeCid asg cid c).lits = e.lits ∧ ∀ i m, i ≠ cid → i ∈ e.occ m → i ∈ (e.removeCid asg cid c).occ m
  | [], e => ⟨rfl, rfl, fun _ _ _ h => h⟩
  | l :: c, e => by
    obtain ⟨h1, h2, h3⟩ := removeCid_spec asg cid c (if (asg l.var).isNone then e.removeLit l cid else e)
    unfold El.removeCid at *
    simp only [List.foldl_cons]
    refine ⟨h1.trans ?_, h2.trans ?_, fun i m hi hm => h3 i m hi ?_⟩
    · split <;> simp
    · split <;> simp
    · split
      · exact mem_removeLit hm (.inl hi)
      · exact hm

@[simp] theorem addLit_lits (evo : Nat) (el : Nat → Bool) (cid : Nat) (e : El) (l : Lit) : (e.addLit evo el cid l).lits = e.lits := by
  unfold El.addLit; split
  · rfl
  · split <;> simp

theorem addLit_mono (evo : Nat) (el : Nat → Bool) (cid : Nat) (e : El) (l : Lit) :
    (∀ v, e.aborted v = true → (e.addLit evo el cid l).aborted v = true) ∧ ∀ i m, i ∈ e.occ m → i ∈ (e.addLit evo el cid l).occ m := by
  unfold El.addLit; split
  · refine ⟨fun v h => ?_, fun i m h => h⟩
    simp only [upd_apply]; split
    · rfl
    · exact h
  · split
    · exact ⟨fun _ h => h, fun _ _ h => h⟩
    · refine ⟨by simp, fun i m h => ?_⟩
      rw [occ_setOcc]; split
      · rename_i e; subst e; simp [h]
      · exact h

theorem addLit_self {evo : Nat} {el : Nat → Bool} {cid : Nat} {e : El} {l : Lit} (he : el l.var = false) :
    (e.addLit evo el cid l).aborted l.var = true ∨ cid ∈ (e.addLit evo el cid l).occ l := by
  unfold El.addLit; split
  · left; simp
  · rw [he]; right; simp [occ_setOcc]

theorem addLits_spec (evo : Nat) (el : Nat → Bool) (cid : Nat) : ∀ (c : Cls) (e : El), (c.foldl (El.addLit evo el cid) e).lits = e.lits ∧
    (∀ v, e.aborted v = true → (c.foldl (El.addLit evo el cid) e).aborted v = true) ∧
    (∀ i m, i ∈ e.occ m → i ∈ (c.foldl (El.addLit evo el cid) e).occ m) ∧
    ∀ l ∈ c, el l.var = false → (c.foldl (El.addLit evo el cid) e).aborted l.var = true ∨ cid ∈ (c.foldl (El.addLit evo el cid) e).occ l
  | [], e => by simp
  | l :: c, e => by
    obtain ⟨h1, h2, h3, h4⟩ := addLits_spec evo el cid c (e.addLit evo el cid l)
    obtain ⟨m1, m2⟩ := addLit_mono evo el cid e l
    simp only [List.foldl_cons]
    refine ⟨by rw [h1]; simp, fun v hv => h2 v (m1 v hv), fun i m hi => h3 i m (m2 i m hi), fun x hx he => ?_⟩
    rcases List.mem_cons.1 hx with rfl | hx
    · rcases addLit_self (evo := evo) (cid := cid) (e := e) he with h | h
      · exact .inl (h2 _ h)
      · exact .inr (h3 _ _ h)
    · exact h4 x hx he

/-! ## changes of flags -/

/-- Only flags of clauses change; no clause becomes learnt. -/
structure Cdb.Flags (db db' : Cdb) : Prop where
  lits : ∀ i, (db'.clause i).lits = (db.clause i).lits
  learnt : ∀ i, (db'.clause i).learnt = true → (db.clause i).learnt = true
  cert : db'.cert = db.cert
  wf : db.WF → db'.WF

theorem Cdb.Flags.refl (db : Cdb) : Cdb.Flags db db := ⟨fun _ => rfl, fun _ h => h, rfl, id⟩

theorem Cdb.Flags.trans {a b c : Cdb} (h1 : Cdb.Flags a b) (h2 : Cdb.Flags b c) : Cdb.Flags a c :=
  ⟨fun i => (h2.lits i).trans (h1.lits i), fun i h => h1.learnt i (h2.learnt i h), h2.cert.trans h1.cert, h2.wf ∘ h1.wf⟩

theorem Cdb.Flags.prim {db db' : Cdb} (h : Cdb.Flags db db') {i : Nat} (hp : Prim (db.clause i)) : Prim (db'.clause i) := by
  rcases hp with hp | hp
  · left
    cases hl : (db'.clause i).learnt with
    | false => rfl
    | true => rw [h.learnt i hl] at hp; exact absurd hp (by simp)
  · right; rw [h.lits]; exact hp

theorem Tr.flags {r : Bool} {db : Cdb} {s : Stk} {db' : Cdb} (hi : RInv db s) (hl : s.lim = []) (h : Cdb.Flags db db') : Tr false r db s db' s := by
  refine Tr.ofDb ⟨h.wf hi.wf, hi.inv.root_db hl⟩ [] [] (by rw [h.cert]; simp) (by simp) (fun hw => by rw [lives_perm hw (h.wf hw) fun i => by rw [h.lits]]) .nil ?_ ?_ (by simp) (by simp) (by simp) (by simp)
  · intro i hne; left; rw [h.lits] at hne ⊢; exact ⟨i, hne, fun _ => .rfl⟩
  · intro i hne hp; right; exact ⟨i, by rw [h.lits]; exact hne, h.prim hp, fun x hx => by rw [h.lits] at hx; exact hx⟩

theorem flags_setC {db : Cdb} {cid : Nat} {c : Cl} (h1 : c.lits = (db.clause cid).lits) (h2 : c.learnt = true → (db.clause cid).learnt = true)
    (h3 : c.searchFrom = (db.clause cid).searchFrom) : Cdb.Flags db (db.setC cid c) := by
  have hc : ∀ i, (db.setC cid c).clause i = if i = cid then c else db.clause i := fun i => by simp [Cdb.setC, upd_apply]
  refine ⟨fun i => ?_, fun i h => ?_, rfl, fun w => Cdb.wf_lits w (fun i => ?_) rfl rfl rfl rfl rfl⟩
  · rw [hc]; split
    · rename_i e; rw [e, h1]
    · rfl
  · rw [hc] at h; split at h
    · rename_i e; rw [e]; exact h2 h
    · exact h
  · rw [hc]; split
    · rename_i e; rw [e]; exact ⟨h1, h3⟩
    · exact ⟨rfl, rfl⟩

theorem flags_setLinked (db : Cdb) (cid : Nat) (b : Bool) : Cdb.Flags db (db.setLinked cid b) := flags_setC rfl id rfl

theorem flags_addCid (evo : Nat) (x : DS) (e : El) (cid : Nat) : Cdb.Flags x.1 (addCid evo x e cid).1.1 := by
  unfold addCid; split
  · exact .refl _
  · exact flags_setLinked _ _ _

/-- Linking a clause. -/
theorem addCid_spec {evo : Nat} {x : DS} {e : El} {cid : Nat} (hl : (x.1.clause cid).occurLinked = false)
    (he : ∀ l ∈ (x.1.clause cid).lits, x.2.elim l.var = false) : (addCid evo x e cid).1.2 = x.2 ∧ (addCid evo x e cid).2.lits = e.lits ∧
    (∀ v, e.aborted v = true → (addCid evo x e cid).2.aborted v = true) ∧ (∀ i m, i ∈ e.occ m → i ∈ (addCid evo x e cid).2.occ m) ∧
    ∀ l ∈ (x.1.clause cid).lits, (addCid evo x e cid).2.aborted l.var = true ∨ cid ∈ (addCid evo x e cid).2.occ l := by
  unfold addCid
  rw [hl]
  obtain ⟨h1, h2, h3, h4⟩ := addLits_spec evo x.2.elim cid (x.1.clause cid).lits e
  exact ⟨rfl, h1, h2, h3, fun l hm => h4 l hm (he l hm)⟩

theorem addCid_occ {evo : Nat} {x : DS} {e : El} {cid : Nat} (hl : (x.1.clause cid).occurLinked = false)
    (he : ∀ l ∈ (x.1.clause cid).lits, x.2.elim l.var = false)
    (h : ∀ i, i ≠ cid → ∀ l ∈ (x.1.clause i).lits, e.aborted l.var = false → i ∈ e.occ l) :
    OccInv (addCid evo x e cid).2 (addCid evo x e cid).1.1 (addCid evo x e cid).1.2 := by
  obtain ⟨h1, h2, h3, h4, h5⟩ := addCid_spec (evo := evo) (e := e) hl he
  intro i l hm hab
  rw [(flags_addCid evo x e cid).lits] at hm
  by_cases ei : i = cid
  · subst ei
    rcases h5 l hm with h | h
    · rw [hab] at h; exact absurd h (by simp)
    · exact h
  · refine h4 i l (h i ei l hm ?_)
    cases ha : e.aborted l.var with
    | false => rfl
    | true => rw [h3 _ ha] at hab; exact absurd hab (by simp)

/-! ## `prepare` -/

theorem linkLoop_spec {evo cnf : Nat} : ∀ {cids : List Nat} {y y' : DS × El}, linkLoop evo cnf cids y = .ok y' →
    (∀ i, ∀ l ∈ (y.1.1.clause i).lits, y.1.2.elim l.var = false) →
    (∀ i, ∀ l ∈ (y.1.1.clause i).lits, (y.1.1.clause i).occurLinked = true ∨ i ∉ cids → y.2.aborted l.var = false → i ∈ y.2.occ l) →
    y'.1.2 = y.1.2 ∧ Cdb.Flags y.1.1 y'.1.1 ∧ y'.2.lits = y.2.lits ∧ OccInv y'.2 y'.1.1 y'.1.2
  | [], y, y', e, _, h => by
    simp only [linkLoop, Res.ok.injEq] at e; subst e
    exact ⟨rfl, .refl _, rfl, fun i l hl hab => h i l hl (.inr (by simp)) hab⟩
  | cid :: cids, y, y', e, he, h => by
    unfold linkLoop at e
    split at e
    · rename_i hc
      refine linkLoop_spec e he fun i l hl ho hab => ?_
      by_cases ei : i = cid
      · subst ei
        simp only [Bool.or_eq_true, Cl.dead, List.isEmpty_iff] at hc
        rcases hc with hc | hc
        · rw [hc] at hl; simp at hl
        · exact h i l hl (.inl hc) hab
      · refine h i l hl (ho.imp id fun hn => ?_) hab
        simp [ei, hn]
    split at e
    · simp at e
    rename_i hc _
    simp only [Bool.or_eq_true, not_or, Bool.not_eq_true] at hc
    obtain ⟨h1, h2, h3, h4, h5⟩ := addCid_spec (evo := evo) (e := y.2) hc.2 (he cid)
    have hf := flags_addCid evo y.1 y.2 cid
    obtain ⟨r1, r2, r3, r4⟩ := linkLoop_spec e (fun i l hl => by rw [hf.lits] at hl; rw [h1]; exact he i l hl) (by
      intro i l hl ho hab
      rw [hf.lits] at hl
      by_cases ei : i = cid
      · subst ei
        rcases h5 l hl with h | h
        · rw [hab] at h; exact absurd h (by simp)
        · exact h
      · refine h4 i l (h i l hl ?_ ?_)
        · rcases ho with ho | ho
          · left
            unfold addCid at ho
            rw [hc.2] at ho
            simpa [Cdb.setLinked, Cdb.setC, upd_apply, ei] using ho
          · right; simp [ei, ho]
        · cases ha : y.2.aborted l.var with
          | false => rfl
          | true => rw [h3 _ ha] at hab; exact absurd hab (by simp))
    exact ⟨r1.trans h1, hf.trans r2, r3.trans h2, r4⟩

theorem mem_ids {db : Cdb} (h : db.WF) {i : Nat} (hi : (db.clause i).lits ≠ []) : i ∈ db.ids := by
  have := h.arena
  have h1 : i < db.len := by
    by_contra hn
    exact hi (this.big i (by omega))
  have h0 : i ≠ 0 := by rintro rfl; exact hi this.zero
  unfold Cdb.ids
  rw [List.mem_iff_getElem]
  refine ⟨i - 1, by simp; omega, by simp; omega⟩

/-- `prepare` when the eliminator is enabled: the clauses stay, the occurrence lists are complete. -/
theorem prepare_spec {evo cnf : Nat} {x : DS} {y : DS × El} (hw : x.1.WF) (hd : Dom x.1 x.2) (hu : Unl x.1)
    (e : prepare true evo cnf x = .ok y) : y.1.2 = x.2 ∧ Cdb.Flags x.1 y.1.1 ∧ y.2.lits = [] ∧ OccInv y.2 y.1.1 y.1.2 := by
  unfold prepare at e
  simp only [Bool.not_true, Bool.false_eq_true, if_false] at e
  cases hl : linkLoop evo cnf x.1.ids (x, El.new) with
  | ok z =>
    rw [hl] at e
    simp only [Res.bind] at e
    split at e
    · simp at e
    simp only [Res.ok.injEq] at e; subst e
    refine linkLoop_spec hl (fun i l hl => (hd.cl i l hl).2.2) fun i l hl ho _ => ?_
    rcases ho with ho | ho
    · rw [hu i (List.ne_nil_of_mem hl)] at ho; exact absurd ho (by simp)
    · exact absurd (mem_ids hw (List.ne_nil_of_mem hl)) ho
  | _ => rw [hl] at e; simp [Res.bind] at e

theorem linkLoop_not_unsat {evo cnf : Nat} {db : Cdb} {s : Stk} : ∀ {cids : List Nat} {y : DS × El}, linkLoop evo cnf cids y ≠ .unsat db s
  | [], y => by simp [linkLoop]
  | c :: cs, y => by
    unfold linkLoop
    split
    · exact linkLoop_not_unsat
    split
    · simp
    · exact linkLoop_not_unsat

theorem prepare_not_unsat {en : Bool} {evo cnf : Nat} {x : DS} {db : Cdb} {s : Stk} : prepare en evo cnf x ≠ .unsat db s := by
  unfold prepare
  split
  · simp
  · cases h : linkLoop evo cnf x.1.ids (x, El.new) with
    | unsat db s => exact absurd h linkLoop_not_unsat
    | ok z => simp only [Res.bind]; split <;> simp
    | _ => simp [Res.bind]

/-! ## removing a clause -/

/-- What `dropClause` does, whatever the meaning of the clause. -/
structure Dropped (x : DS) (e : El) (cid : Nat) (y : DS × El) : Prop where
  stk : y.1.2 = x.2
  wf : y.1.1.WF
  gone : (y.1.1.clause cid).lits = []
  keep : ∀ i, i ≠ cid → y.1.1.clause i = x.1.clause i
  cert : y.1.1.cert = x.1.cert ++ [.del (x.1.clause cid).lits]
  lits : y.2.lits = e.lits
  occ : ∀ {db0 : Cdb} {s0 : Stk}, OccInv e db0 s0 → (∀ i, i ≠ cid → ∀ l ∈ (x.1.clause i).lits, l ∈ (db0.clause i).lits) →
    (∀ v, s0.assign v ≠ none → x.2.assign v ≠ none) → OccInv y.2 y.1.1 y.1.2

theorem dropClause_spec {x : DS} {e : El} {cid : Nat} (hw : x.1.WF) (hne : (x.1.clause cid).lits ≠ []) :
    ∃ y, dropClause x e cid = .ok y ∧ Dropped x e cid y ∧ (x.1.setLinked cid false).removeClause cid = some y.1.1 := by
  have hf := flags_setLinked x.1 cid false
  have hw' := hf.wf hw
  obtain ⟨db', hr⟩ := Cdb.removeClause_isSome hw' (cid := cid) (by rw [hf.lits]; exact hne)
  obtain ⟨w, -, hc, -, hcert⟩ := Cdb.removeClause_spec hw' hr
  obtain ⟨r1, r2, r3⟩ := removeCid_spec x.2.assign cid (x.1.clause cid).lits e
  have hk : ∀ i, i ≠ cid → db'.clause i = x.1.clause i := fun i hi => by
    rw [hc, upd_of_ne _ _ hi]; simp [Cdb.setLinked, Cdb.setC, upd_apply, hi]
  have hg : (db'.clause cid).lits = [] := by rw [hc]; simp
  refine ⟨((db', x.2), e.removeCid x.2.assign cid (x.1.clause cid).lits), ?_, ⟨rfl, w, hg, hk, ?_, r2, ?_⟩, hr⟩
  · unfold dropClause Cdb.removeRes; rw [hr]; rfl
  · show db'.cert = _; rw [hcert, hf.lits, hf.cert]
  · intro db0 s0 ho hc' ha i l hl hab
    by_cases ei : i = cid
    · subst ei; rw [show ((((db', x.2), e.removeCid x.2.assign i (x.1.clause i).lits) : DS × El).1.1.clause i).lits = [] from hg] at hl; simp at hl
    · refine r3 i l ei (ho i l (hc' i ei l ?_) ?_)
      · have hl : l ∈ (db'.clause i).lits := hl
        rw [hk i ei] at hl; exact hl
      · have hab : (e.removeCid x.2.assign cid (x.1.clause cid).lits).aborted l.var = false := hab
        rw [r1] at hab; exact hab

/-- Removing a redundant clause. -/
theorem rg_drop {r : Bool} {x : DS} {e : El} {cid : Nat} (hi : RInv x.1 x.2) (hl : x.2.lim = []) (hne : (x.1.clause cid).lits ≠ [])
    (hback : Prim (x.1.clause cid) → (∃ l ∈ (x.1.clause cid).lits, Root x.2 l) ∨
      ∃ j, j ≠ cid ∧ (x.1.clause j).lits ≠ [] ∧ Prim (x.1.clause j) ∧ ∀ m ∈ (x.1.clause j).lits, m ∈ (x.1.clause cid).lits) :
    RG false r x.1 x.2 (·.1) (Dropped x e cid) (dropClause x e cid) := by
  obtain ⟨y, hy, hd, hr⟩ := dropClause_spec (e := e) hi.wf hne
  rw [hy]
  refine ⟨?_, hd⟩
  have hf := flags_setLinked x.1 cid false
  have t1 : Tr false r x.1 x.2 _ x.2 := Tr.flags hi hl hf
  have hcid : ∀ i, (((x.1.setLinked cid false).clause i).lits = (x.1.clause i).lits) := hf.lits
  have hpr : ∀ i, Prim ((x.1.setLinked cid false).clause i) ↔ Prim (x.1.clause i) := fun i => by
    unfold Prim; rw [hcid]
    have : ((x.1.setLinked cid false).clause i).learnt = (x.1.clause i).learnt := by
      simp only [Cdb.setLinked, Cdb.setC, upd_apply]; split
      · rename_i e; rw [e]
      · rfl
    rw [this]
  have t2 : Tr false r (x.1.setLinked cid false) x.2 y.1.1 x.2 := by
    refine Tr.remove t1.rinv hl hr (fun hp => ?_) (by simp)
    rw [hcid]
    rcases hback ((hpr _).1 hp) with h | ⟨j, h1, h2, h3, h4⟩
    · exact .inl h
    · right; refine ⟨j, h1, ?_⟩; rw [hcid, hpr]; exact ⟨h2, h3, h4⟩
  rw [hd.stk]
  exact t1.trans t2

/-! ## subsumption and strengthening -/

/-- What the eliminator keeps, step by step. -/
structure Kept (e : El) (s : Stk) (y : DS × El) : Prop where
  lim : y.1.2.lim = []
  occ : OccInv y.2 y.1.1 y.1.2
  lits : y.2.lits = e.lits

theorem rg_trySubsume {r : Bool} {x : DS} {e : El} {cid did : Nat} (hi : RInv x.1 x.2) (hl : x.2.lim = []) (ho : OccInv e x.1 x.2)
    (hcd : cid ≠ did) (hc : (x.1.clause cid).lits ≠ []) (hd : (x.1.clause did).lits ≠ []) :
    RG false r x.1 x.2 (·.1) (Kept e x.2) (trySubsume x e cid did) := by
  unfold trySubsume
  split
  swap
  · exact ⟨.refl hi, hl, ho, rfl⟩
  rename_i hs
  have hs : ∀ l ∈ (x.1.clause cid).lits, l ∈ (x.1.clause did).lits := by simpa [subsumes] using hs
  set db1 := if (x.1.clause did).learnt = true then x.1 else x.1.setC cid { x.1.clause cid with learnt := false } with hdb1
  have hf : Cdb.Flags x.1 db1 := by
    rw [hdb1]; split
    · exact .refl _
    · exact flags_setC rfl (by simp) rfl
  have hdid : db1.clause did = x.1.clause did := by
    rw [hdb1]; split
    · rfl
    · simp [Cdb.setC, upd_apply, Ne.symm hcd]
  have t1 : Tr false r x.1 x.2 db1 x.2 := Tr.flags hi hl hf
  refine RG.after t1 ((rg_drop (x := (db1, x.2)) (e := e) t1.rinv hl (by rw [show (((db1, x.2) : DS).1.clause did) = x.1.clause did from hdid]; exact hd) ?_).mono ?_)
  · intro hp
    right
    refine ⟨cid, hcd, by rw [show ((db1, x.2) : DS).1 = db1 from rfl, hf.lits]; exact hc, ?_, ?_⟩
    · show Prim (db1.clause cid)
      have hp : Prim (db1.clause did) := hp
      rw [hdid] at hp
      by_cases hlr : (x.1.clause did).learnt = true
      · rcases hp with hp | hp
        · rw [hlr] at hp; exact absurd hp (by simp)
        · right; rw [hf.lits]
          have h2 := hi.wf.len2 cid hc
          have hnd : (x.1.clause cid).lits.Nodup := List.Nodup.of_map _ (hi.wf.nd cid)
          have := (hnd.subperm fun l hl => hs l hl).length_le
          omega
      · left; rw [hdb1, if_neg hlr]; simp [Cdb.setC]
    · intro m hm
      have hm : m ∈ (db1.clause cid).lits := hm
      rw [hf.lits] at hm
      show m ∈ (db1.clause did).lits
      rw [hdid]; exact hs m hm
  · rintro y - hy
    refine ⟨by rw [hy.stk]; exact hl, hy.occ ho (fun i _ l hm => ?_) (fun _ h => h), hy.lits⟩
    have hm : l ∈ (db1.clause i).lits := hm
    rw [hf.lits] at hm; exact hm

/-- A clause is logged. -/
theorem Tr.log {r : Bool} {db : Cdb} {s : Stk} {c : Cls} (hi : RInv db s) (hrup : ∀ D, MC db s D → (∀ x ∈ c, D x.neg) → False)
    (hdom : Dom db s → ∀ x ∈ c, Okv s x.var) (hl : s.lim = []) (hnn : c ≠ []) : Tr false r db s (db.log (.add c)) s := by
  have hw : (db.log (.add c)).WF := Cdb.wf_lits hi.wf (fun _ => ⟨rfl, rfl⟩) rfl rfl rfl rfl rfl
  refine Tr.ofDb ⟨hw, hi.inv.root_db hl⟩ [c] [] (by simp [Cdb.log]) (by simp)
    (fun hw0 => by rw [lives_perm hw0 hw fun i => .refl _]; simp) (.one hrup) ?_ ?_ (by simp) (by simp) ?_ (by simp) (by simpa using hnn)
  · intro i hne; exact .inl ⟨i, hne, fun _ => .rfl⟩
  · intro i hne hp; exact .inr ⟨i, hne, hp, fun _ h => h⟩
  · intro hd c' hc'; simp at hc'; subst hc'; exact hdom hd

/-- Dropping a false literal from a clause. -/
theorem rg_strengthen {r : Bool} {x : DS} {e : El} {cid : Nat} {p : Lit} (hi : RInv x.1 x.2) (hl : x.2.lim = []) (ho : OccInv e x.1 x.2)
    (hp : p ∈ (x.1.clause cid).lits) (hroot : Root x.2 p.neg) : RG false r x.1 x.2 (·.1) (Kept e x.2) (strengthen x e cid p) := by
  obtain ⟨db, s⟩ := x
  simp only [] at hi hl ho hp hroot ⊢
  have hne : (db.clause cid).lits ≠ [] := List.ne_nil_of_mem hp
  obtain ⟨db1, rf, he, w, out, hk, hlr, -⟩ := Cdb.transformByElimination_spec hi.wf hp
  unfold strengthen
  simp only []
  rw [he]
  have hpa : s.assign p.var ≠ none := by have := tr_assigned hroot.1; simpa using this
  have sub_of : ∀ (c : Cls), (∀ m ∈ c, m ∈ (db.clause cid).lits) → (∀ m ∈ (db1.clause cid).lits, m ∈ c) → ∀ i, ∀ l ∈ (db1.clause i).lits, l ∈ (db.clause i).lits := by
    intro c h1 h2 i l hm
    by_cases ei : i = cid
    · subst ei; exact h1 l (h2 l hm)
    · rw [hk i ei] at hm; exact hm
  cases out with
  | clause h h' hc =>
    simp only []
    have hnf : (db.clause cid).lits.filter (· ≠ p) ≠ [] := by
      intro e0
      have h3 : 3 ≤ (db.clause cid).lits.length := h
      have h2 := hi.wf.nd cid
      obtain ⟨a, b, c, tl, e3⟩ : ∃ a b c tl, (db.clause cid).lits = a :: b :: c :: tl := by
        match hh : (db.clause cid).lits, h3 with
        | a :: b :: c :: tl, _ => exact ⟨a, b, c, tl, rfl⟩
      rw [e3] at e0 h2
      rw [List.filter_eq_nil_iff] at e0
      have ha := e0 a (by simp); have hb := e0 b (by simp)
      simp at ha hb h2
      rw [ha, hb] at h2; exact h2.1.1 rfl
    refine ⟨?_, hl, ?_, by simp⟩
    · refine Tr.ofDb ⟨w, hi.inv.root_db hl⟩ [_] [(db.clause cid).lits] (by show db1.cert = _; rw [hc]; simp) (by simpa using hne)
        (fun hw0 => lives_sub hw0 w hk hne (by rw [h']))
        (.one fun D hD hn => drop_false_rup hD hne (c := (db.clause cid).lits.filter (· ≠ p)) (fun m hm => ?_) hn) ?_ ?_ (by simp) (by simp) ?_ (by simp) fun c hc => by
          rw [List.mem_singleton.1 hc]; exact hnf
      · by_cases e : m = p
        · right; rw [e]; exact hroot
        · left; simp [hm, e]
      · intro i hn
        by_cases e : i = cid
        · subst e; right; exact ⟨_, List.mem_singleton_self _, fun m => by simp only []; rw [h']⟩
        · simp only [] at hn ⊢
          rw [hk i e] at hn ⊢; exact .inl ⟨i, hn, fun _ => .rfl⟩
      · intro i hn hpr
        by_cases e : i = cid
        · subst e; right
          have h3 : 3 ≤ (db.clause i).lits.length := h
          refine ⟨i, ?_, ?_, ?_⟩
          · show (db1.clause i).lits ≠ []
            intro e0
            rw [h'] at e0
            exact hnf e0
          · rcases hpr with hpr | hpr
            · left; show (db1.clause i).learnt = false; rw [hlr, hpr]
            · omega
          · intro m hm
            have hm : m ∈ (db1.clause i).lits := hm
            rw [h'] at hm; exact (List.mem_filter.1 hm).1
        · right; refine ⟨i, ?_⟩; simp only []; rw [hk i e]; exact ⟨hn, hpr, fun _ h => h⟩
      · intro hd c hcm m hm; simp only [List.mem_singleton] at hcm; subst hcm
        exact hd.cl cid m (List.mem_filter.1 hm).1
    · intro i l hm hab
      rw [removeLit_aborted] at hab
      have hm : l ∈ (db1.clause i).lits := hm
      refine mem_removeLit (ho i l (sub_of _ (fun m h => h) (fun m hm => by rw [h'] at hm; exact (List.mem_filter.1 hm).1) i l hm) hab) ?_
      by_cases ei : i = cid
      · right; rintro rfl; rw [ei, h'] at hm; simp at hm
      · exact .inl ei
  | registered reg a b h hr h' h3 hc =>
    simp only []
    have hreg : reg ≠ cid := by
      rintro rfl; rcases hr with e | e <;> rw [e] at h3 <;> simp at h3
    have hregk : db1.clause reg = db.clause reg := hk reg hreg
    have hf : Cdb.Flags db db1 := by
      refine ⟨fun i => ?_, fun i hi' => ?_, hc, fun _ => w⟩
      · by_cases e : i = cid
        · subst e; exact h'
        · rw [hk i e]
      · by_cases e : i = cid
        · subst e; rw [hlr] at hi'; exact hi'
        · rw [hk i e] at hi'; exact hi'
    have t1 : Tr false r db s db1 s := Tr.flags hi hl hf
    refine RG.after t1 ((rg_drop (x := (db1, s)) (e := e) t1.rinv hl (by show (db1.clause cid).lits ≠ []; rw [h']; exact hne) ?_).mono ?_)
    · intro _
      right
      refine ⟨reg, hreg, ?_⟩
      simp only []
      rw [hregk, h']
      have hsub : ∀ m, m ∈ [a, b] → m ∈ (db.clause cid).lits := fun m hm => by rw [← h] at hm; exact (List.mem_filter.1 hm).1
      refine ⟨?_, .inr ?_, ?_⟩
      · rcases hr with e | e <;> rw [e] <;> simp
      · rcases hr with e | e <;> rw [e] <;> rfl
      · intro m hm; apply hsub; rcases hr with e | e <;> rw [e] at hm <;> simp at hm ⊢ <;> tauto
    · rintro y - hy
      refine ⟨by rw [hy.stk]; exact hl, hy.occ ho (fun i _ l hm => ?_) (fun _ h => h), hy.lits⟩
      have hm : l ∈ (db1.clause i).lits := hm
      rw [hf.lits] at hm; exact hm
  | unit a h h' hc =>
    simp only []
    have hmem : ∀ m, m ∈ (db1.clause cid).lits ↔ m ∈ (db.clause cid).lits := by
      intro m; rw [h']; rcases h with e | e <;> rw [e] <;> simp; tauto
    have hmema : a ∈ (db.clause cid).lits := by rcases h with e | e <;> rw [e] <;> simp
    have hmem' : ∀ i m, m ∈ (db1.clause i).lits ↔ m ∈ (db.clause i).lits := by
      intro i m
      by_cases e : i = cid
      · subst e; exact hmem m
      · rw [hk i e]
    have hlen : ∀ i, (db1.clause i).lits.length = (db.clause i).lits.length := by
      intro i
      by_cases e : i = cid
      · subst e; rw [h']; rcases h with e | e <;> rw [e] <;> rfl
      · rw [hk i e]
    have hlr' : ∀ i, (db1.clause i).learnt = (db.clause i).learnt := by
      intro i
      by_cases e : i = cid
      · subst e; exact hlr
      · rw [hk i e]
    have hperm : ∀ i, (db1.clause i).lits.Perm (db.clause i).lits := by
      intro i
      by_cases e : i = cid
      · subst e; rw [h']; rcases h with e | e
        · rw [e]
        · rw [e]; exact .swap _ _ _
      · rw [hk i e]
    have t1 : Tr false r db s db1 s := by
      refine Tr.ofDb ⟨w, hi.inv.root_db hl⟩ [] [] (by rw [hc]; simp) (by simp)
        (fun hw0 => by rw [lives_perm hw0 w hperm]) .nil ?_ ?_ (by simp) (by simp) (by simp) (by simp)
      · intro i hn; left; refine ⟨i, ?_, hmem' i⟩
        obtain ⟨m, hm⟩ := List.exists_mem_of_ne_nil _ hn
        exact List.ne_nil_of_mem ((hmem' i m).1 hm)
      · intro i hn hpr; right
        refine ⟨i, ?_, ?_, fun m hm => (hmem' i m).1 hm⟩
        · obtain ⟨m, hm⟩ := List.exists_mem_of_ne_nil _ hn
          exact List.ne_nil_of_mem ((hmem' i m).2 hm)
        · unfold Prim at *; rw [hlr', hlen]; exact hpr
    have hne1 : (db1.clause cid).lits ≠ [] := by rw [h']; simp
    have hrup : ∀ D, MC db1 s D → D a.neg → False := by
      intro D hD hna
      obtain ⟨y, hy, hyn⟩ := hD.1.conf cid hne1
      rw [h'] at hy
      simp at hy
      rcases hy with rfl | rfl
      · exact hyn hna
      · exact hyn (hD.1.root _ hroot.1 hroot.2)
    have hok : Dom db1 s → Okv s a.var := fun hd => hd.cl cid a (by rw [h']; simp)
    have hw1 : (db1.log (.add [a])).WF := Cdb.wf_lits w (fun _ => ⟨rfl, rfl⟩) rfl rfl rfl rfl rfl
    obtain ⟨y, hy, hyd, hyr⟩ := dropClause_spec (x := (db1.log (.add [a]), s)) (e := e) hw1 (cid := cid) hne1
    have hks : ∀ i, ∀ l ∈ ((db1.log (.add [a])).clause i).lits, l ∈ (db.clause i).lits := fun i l hm => (hmem' i l).1 hm
    rw [hy]
    simp only [Res.bind]
    -- removing the clause once `a` holds
    have rem : ∀ s1, Tr false r db s (db1.log (.add [a])) s1 → s1.lim = [] → Root s1 a → Tr false r db s y.1.1 s1 := by
      intro s1 t hl1 hr1
      have hf := flags_setLinked (db1.log (.add [a])) cid false
      have t2 : Tr false r _ s1 _ s1 := Tr.flags t.rinv hl1 hf
      refine t.trans (t2.trans (Tr.remove t2.rinv hl1 hyr (fun _ => .inl ⟨a, ?_, hr1⟩) (by simp)))
      rw [hf.lits]; show a ∈ (db1.clause cid).lits; rw [h']; simp
    have hs1 := hyd.stk
    simp only [] at hs1
    have bad : (∀ D, MC db1 s D → (∀ c ∈ [[a]], Resp D c) → False) → Refuted db1 s y.1.1 := by
      intro hm
      refine .mk [[a]] [(db1.clause cid).lits] (by rw [hyd.cert]; simp [Cdb.log]) (.one fun D hD hn => hrup D hD (hn a (by simp))) hm
        (by simpa using hne1) (fun hw => ?_) fun hd c hc => by
          simp at hc; subst hc
          exact ⟨by simp, fun x hx => by simp at hx; subst hx; exact ⟨(hok hd).1, (hok hd).2.1⟩⟩
      have h1 := mem_lives hw hne1
      rw [show bag [(db1.clause cid).lits] = {((db1.clause cid).lits : Multiset Lit)} from rfl]
      exact (Multiset.singleton_le.2 h1).trans (Multiset.le_add_right _ _)
    rw [hs1]
    rcases tr_cases s a with ha | ha | ha
    · rw [val_true.2 ha]
      refine ⟨?_, by rw [hs1]; exact hl, hyd.occ ho (fun i _ l hm => hks i l hm) (fun _ h => h), hyd.lits⟩
      show Tr false r db s y.1.1 y.1.2
      rw [hs1]
      exact rem s (t1.trans (Tr.log t1.rinv (fun D hD hn => hrup D hD (hn a (by simp))) (fun hd m hm => by simp at hm; subst hm; exact hok hd) hl (by simp))) hl
        ⟨ha, hi.inv.level_root hl (tr_assigned ha)⟩
    · rw [val_false.2 ha]
      refine Refuted.after t1 (bad fun D hD _ => hrup D hD ?_)
      exact hD.1.root _ ha (hi.inv.level_root hl (tr_assigned ha))
    · rw [val_none.2 ha]
      have hu := rg_unit (k := false) (r := r) t1.rinv hl hrup hok
      unfold Stk.assignRootRes at hu ⊢
      generalize s.assignRoot noLow a = g at hu ⊢
      obtain ⟨s1, b⟩ := g
      cases b with
      | true =>
        simp only [] at hu ⊢
        obtain ⟨tu, hl1, -, hr1⟩ := hu
        have tt : Tr false r db s _ s1 := t1.trans tu
        refine ⟨rem s1 tt hl1 hr1, hl1, ?_, hyd.lits⟩
        have := hyd.occ ho (fun i _ l hm => hks i l hm) (fun _ h => h)
        rw [hs1] at this
        exact this.mono (fun _ _ h => h) (tt.assigned hi.inv hl)
      | false =>
        simp only [] at hu ⊢
        refine Refuted.after t1 (bad ?_)
        obtain ⟨⟨new, hn1, hn2, hn3⟩, -⟩ := hu
        have : new = [[a]] := by simpa using hn1.symm
        subst this
        exact hn3

theorem rg_tryLifted {r : Bool} {x : DS} {e : El} {l : Lit} {did : Nat} (hi : RInv x.1 x.2) (hl : x.2.lim = []) (ho : OccInv e x.1 x.2)
    (hm : l ∈ x.2.trail) : RG false r x.1 x.2 (·.1) (Kept e x.2) (tryLifted x e l did) := by
  unfold tryLifted
  split
  · rename_i h
    have ht := hi.inv.tv l hm
    exact rg_strengthen hi hl ho h (by rw [Lit.neg_neg]; exact ⟨ht, hi.inv.level_root hl (tr_assigned ht)⟩)
  · exact ⟨.refl hi, hl, ho, rfl⟩

theorem rg_propCmd {r : Bool} {y : DS × El} (hi : RInv y.1.1 y.1.2) (hl : y.1.2.lim = []) (ho : OccInv y.2 y.1.1 y.1.2) :
    RG false r y.1.1 y.1.2 (·.1) (Kept y.2 y.1.2) ((Stk.propagateSandbox y.1.1 y.1.2).toRes.bind fun z => .ok (z, y.2)) := by
  have hg := propagateSandbox_good hi
  have hr := rg_propagate (k := false) (r := r) hi hl
  cases h : propagateSandbox y.1.1 y.1.2 with
  | ok db' s' =>
    rw [h] at hg hr
    obtain ⟨t, hl'⟩ := hr
    refine ⟨t, hl', ?_, rfl⟩
    exact ho.mono (fun i l hm => ((hg.allR hi).2.1.mem i l).1 hm) (t.assigned hi.inv hl)
  | conflict db' s' l rs => rw [h] at hr; exact hr
  | _ => trivial

end Splr
