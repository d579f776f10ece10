import Verif.Lemmas.ApiSpec
import Verif.Props.C09_C22_Cdb
import Mathlib.Data.Finset.Card
import Mathlib.Order.Interval.Finset.Nat
/-! `solve`: preprocessing, the search, the model. -/
namespace Splr
open Stk

/-! ## preprocessing -/

/-- The state while pure literals are asserted. -/
structure POK (F : Form) (nv : Nat) (e : El) (x : DS) : Prop where
  glob : Glob F x.1 x.2 []
  cov : Cov F x.1 x.2
  lim : x.2.lim = []
  saved : x.2.saved = []
  occ : OccInv e x.1 x.2
  nv : x.2.numVars = nv

/-- The outcome of a function on `DS`. -/
def DR (F : Form) (nv : Nat) (P : DS → Prop) : Res DS → Prop
  | .ok x => P x
  | .unsat db _ => Certified F nv db.cert
  | _ => True

theorem POK.assert {F : Form} {nv : Nat} {e : El} {x : DS} (h : POK F nv e x) {l : Lit} (hn : x.2.assign l.var = none) (h1 : 1 ≤ l.var)
    (h2 : l.var ≤ nv) (hab : e.aborted l.var = false) (ho : e.occ l.neg = []) :
    ∃ y, x.2.assignRootRes (x.1.log (.add [l])) l = .ok y ∧ POK F nv e y := by
  have hok : Okv x.2 l.var := by
    refine ⟨h1, by rw [h.nv]; exact h2, ?_⟩
    cases he : x.2.elim l.var with
    | false => rfl
    | true => obtain ⟨r, hr, -⟩ := h.glob.st.cover _ he; simp at hr
  have hp : ∀ i, l.neg ∉ (x.1.clause i).lits := by
    intro i hi
    have := h.occ i l.neg hi (by rw [Lit.neg_var]; exact hab)
    rw [ho] at this; simp at this
  obtain ⟨s', e1, g, c, hl, sp, ha, hs, -⟩ := h.glob.pure h.lim h.cov hn hok hp
  exact ⟨_, e1, g, c, hl, hs h.saved, h.occ.mono (fun i m hm => hm) ha, sp.numVars.trans h.nv⟩

theorem pureLoop_spec {F : Form} {nv cnf : Nat} {e : El} : ∀ {n vi : Nat} {x : DS}, POK F nv e x → 1 ≤ vi → vi + n ≤ nv + 1 →
    DR F nv (POK F nv e) (pureLoop cnf e n vi x)
  | 0, _, _, h, _, _ => h
  | n + 1, vi, x, h, h1, h2 => by
    unfold pureLoop
    split
    · exact pureLoop_spec h (by omega) (by omega)
    rename_i hn
    have hn : x.2.assign vi = none := by simpa using hn
    split
    · trivial
    split
    · exact pureLoop_spec h (by omega) (by omega)
    rename_i hab
    have hab : e.aborted vi = false := by simpa using hab
    split
    · rename_i ho
      obtain ⟨y, e1, hy⟩ := h.assert (l := ⟨vi, true⟩) hn h1 (show vi ≤ nv by omega) hab (by simpa [El.occ, Lit.neg] using ho)
      rw [e1]; exact pureLoop_spec hy (by omega) (by omega)
    split
    · rename_i ho
      obtain ⟨y, e1, hy⟩ := h.assert (l := ⟨vi, false⟩) hn h1 (show vi ≤ nv by omega) hab (by simpa [El.occ, Lit.neg] using ho)
      rw [e1]; exact pureLoop_spec hy (by omega) (by omega)
    · exact pureLoop_spec h (by omega) (by omega)

theorem rebuildOrder_sok {F : Form} {db : Cdb} {s : Stk} {recs : List Rec} (g : Glob F db s recs) (hs : s.saved = []) (hu : Unl db) (cnf : Nat) :
    SOK F s.numVars { db := db, s := s.rebuildOrder, store := encode recs, cnf := cnf } := by
  have hi : Inv db s.rebuildOrder := g.rinv.inv.congr rfl rfl rfl rfl rfl g.rinv.inv.qh (fun _ _ _ e _ => e) (fun _ _ h => h)
  have hm : ∀ v, v ∈ s.rebuildOrder.heap ↔ (1 ≤ v ∧ v ≤ s.numVars) ∧ s.assign v = none ∧ s.elim v = false := by
    intro v
    simp only [rebuildOrder, List.mem_filter, List.mem_map, List.mem_range, Bool.and_eq_true, Option.isNone_iff_eq_none, Bool.not_eq_true']
    refine and_congr_left fun _ => ⟨?_, fun h => ⟨v - 1, by omega, by omega⟩⟩
    rintro ⟨a, ha, rfl⟩; omega
  refine ⟨rfl, ⟨g.rinv.wf, hi, savedOK_nil hs⟩, fun v hv ha => ?_, hu, recs, g.congr hi rfl rfl rfl rfl g.cnt fun v hv => ?_, rfl⟩
  · exact .inl ((hm v).2 ⟨⟨hv.1, hv.2.1⟩, ha, hv.2.2⟩)
  · rcases hv with hv | hv
    · exact ((hm v).1 hv).1
    · have : s.rebuildOrder.saved = [] := hs
      rw [this] at hv; simp at hv

theorem SR.orOom {F : Form} {nv : Nat} {P : DS → Prop} {x : Res DS} (h : DR F nv P x) (oom : Bool) : DR F nv P (x.orOom oom) := by
  cases x <;> simp only [Res.orOom] <;> try exact h
  split
  · trivial
  · exact h

/-- The preprocessing of a solver that was given `F`. -/
theorem preprocess_spec {F : Form} {cfg : Cfg} (hen : cfg.enable = true) {o : Pre} {x : Sol} (h : BOK F x) :
    SR F x.s.numVars (fun y => SOK F x.s.numVars y ∧ y.cnf = x.cnf) (preprocess cfg o x) := by
  unfold preprocess
  split
  · trivial
  have g := h.glob
  have hv := rg_vivify (r := true) (targets := o.targets) (x := (x.db, x.s)) h.rinv h.lim h.dom
  cases hr : vivify o.targets (x.db, x.s) with
  | unsat db s => rw [hr] at hv; exact g.refuted hv
  | err => trivial
  | panic => trivial
  | fuel => trivial
  | ok x1 =>
  rw [hr] at hv
  obtain ⟨t1, l1⟩ := hv
  simp only [id] at t1
  have g1 := g.step t1
  have c1 := h.cov.step t1
  have v1 := t1.sv rfl h.saved
  have hp := rg_propagate (k := true) (r := true) g1.rinv l1
  simp only [Res.bind]
  cases hr2 : (Stk.propagateSandbox x1.1 x1.2).toRes with
  | unsat db s =>
    rw [hr2] at hp
    simp only [Res.orOom]
    cases o.oom1 with
    | true => trivial
    | false =>
      have := g1.refuted hp
      rw [t1.sp.numVars] at this
      exact this
  | err => trivial
  | panic => trivial
  | fuel => trivial
  | ok x2 =>
  rw [hr2] at hp
  obtain ⟨t2, l2⟩ := hp
  simp only [id] at t2
  by_cases ho : o.oom1 = true
  · simp only [ho, if_true, Res.orOom]; trivial
  simp only [ho, Bool.false_eq_true, if_false, Res.orOom]
  have g2 := g1.step t2
  have c2 := c1.step t2
  have v2 := t2.sv rfl v1
  have u2 : Unl x2.1 := t2.unl rfl (t1.unl rfl h.unl)
  rw [hen]
  cases hr3 : prepare true cfg.evo x.cnf x2 with
  | unsat db s => exact absurd hr3 prepare_not_unsat
  | err => trivial
  | panic => trivial
  | fuel => trivial
  | ok y =>
  obtain ⟨p1, p2, p3, p4⟩ := prepare_spec g2.rinv.wf g2.dom u2 hr3
  have hP : POK F x.s.numVars y.2 y.1 := by
    refine ⟨?_, ?_, by rw [p1]; exact l2, by rw [p1]; exact v2, p4, by rw [p1]; exact t2.sp.numVars.trans t1.sp.numVars⟩
    · rw [p1]; exact g2.step (Tr.flags (r := true) g2.rinv l2 p2)
    · intro c hc
      rw [p2.cert] at hc
      exact covered_same (fun i x => by rw [p2.lits]) (by rw [p1]; exact fun _ h => h) (c2 c hc)
  simp only []
  have h4 := pureLoop_spec (cnf := x.cnf) hP (n := y.1.2.numVars) (vi := 1) (Nat.le_refl _) (by rw [hP.nv]; omega)
  cases hr4 : pureLoop x.cnf y.2 y.1.2.numVars 1 y.1 with
  | unsat db s => rw [hr4] at h4; exact h4
  | err => trivial
  | panic => trivial
  | fuel => trivial
  | ok x3 =>
  rw [hr4] at h4
  have hE : EOK F x3.2 [] (x3, y.2) := ⟨[], by simpa using h4.glob, p3, h4.lim, h4.occ, id, id, rfl⟩
  have hS := simplify_spec (evo := cfg.evo) (cmds := o.cmds) (oom := o.oom2) hE
  simp only []
  cases hr5 : simplify true cfg.evo o.cmds o.oom2 (x3, y.2) with
  | unsat db s =>
    rw [hr5] at hS
    simp only []
    cases o.oom2 with
    | true => trivial
    | false =>
      have hS : Certified F x3.2.numVars db.cert := hS
      rw [h4.nv] at hS
      exact hS
  | err => trivial
  | panic => trivial
  | fuel => trivial
  | ok z =>
  rw [hr5] at hS
  obtain ⟨recs, g', hb, hl, hu, -, hsv, hnv⟩ := hS
  simp only []
  rw [List.nil_append] at g'
  refine ⟨?_, rfl⟩
  have := rebuildOrder_sok g' (hsv h4.saved) hu x.cnf
  rw [hnv.trans h4.nv] at this
  rw [h.store, List.nil_append, hb]; exact this

/-! ## preprocessing without the eliminator -/

/-- Any undecided literal may be asserted as a new given clause. -/
theorem Glob.assume {F : Form} {db : Cdb} {s : Stk} (h : Glob F db s []) (hl : s.lim = []) {l : Lit} (hn : s.assign l.var = none)
    (hok : Okv s l.var) :
    ∃ s', s.assignRootRes (db.log (.add [l])) l = .ok (db.log (.add [l]), s') ∧ Glob (F ++ adds db.cert ++ [[l]]) (db.log (.add [l])) s' [] ∧
      s'.lim = [] ∧ s'.saved = s.saved ∧ s'.numVars = s.numVars := by
  obtain ⟨s', e, hi, hl', htr, hroot, sp, hsv, hel, hh, ha⟩ := assignRoot_new h.rinv.inv hl hn
  have hlv : ∀ v, s'.level v ≤ s.level v := fun v => by
    have := assignRoot_level (s := s) (low := noLow) (l := l) v; rwa [e] at this
  have hw : (db.log (.add [l])).WF := Cdb.wf_lits h.rinv.wf (fun _ => ⟨rfl, rfl⟩) rfl rfl rfl rfl rfl
  have hr1 : ∀ m, Root s m → Root s' m := fun m hm => (hroot m).2 (.inl hm)
  have hlr : Root s' l := (hroot l).2 (.inr rfl)
  have hall : ∀ b, SatP (db.log (.add [l])) b → SatU s' b → Form.sat b (F ++ adds db.cert ++ [[l]]) := by
    intro b hp hu c hc
    have hu0 : SatU s b := fun m hm => hu m (hr1 m hm)
    have : (c ∈ F ∨ c ∈ adds db.cert) ∨ c = [l] := by
      simp only [List.mem_append, List.mem_singleton] at hc; tauto
    rcases this with (hc | hc) | rfl
    · exact h.ext b hp hu0 c hc
    · exact h.all rfl b hp hu0 c hc
    · exact ⟨l, by simp, hu l hlr⟩
  have himp : ∀ b, SatP (db.log (.add [l])) b → SatU s' b → SatL (db.log (.add [l])) b := fun b hp hu => h.imp b hp fun m hm => hu m (hr1 m hm)
  refine ⟨s', by unfold Stk.assignRootRes; rw [e], ⟨⟨hw, hi _⟩, ⟨fun i m hm => sp.okv.2 (h.dom.cl i m hm), fun v hv => sp.okv.2 ?_, fun v hv => ?_, fun d hd => ?_, fun v => by rw [sp.numVars]; exact (hlv v).trans (h.dom.lv v)⟩, sp.cnt h.cnt,
    fun D hD hr => ?_, fun pre c post e => .inl ?_, hall, himp, h.st.congr sp.elim sp.numVars, fun _ b hp hu c hc => hall b hp hu c (by rw [adds_log_add] at hc; simp only [List.mem_append] at hc ⊢; tauto), ?_⟩, hl', hsv, sp.numVars⟩
  · obtain ⟨b, hb⟩ := tr_of_assign hv
    rcases (htr _).1 hb with h1 | h1
    · exact h.dom.as v (tr_assigned h1)
    · have : v = l.var := by rw [← h1]
      rw [this]; exact hok
  · rw [hsv] at hv; rw [sp.numVars]; exact h.dom.hp v (hv.imp (hh v) id)
  · simp only [adds_log_add, List.mem_append, List.mem_singleton] at hd
    rw [sp.numVars]
    rcases hd with hd | rfl
    · exact h.dom.ct d hd
    · exact ⟨by simp, fun m hm => by rw [List.mem_singleton.1 hm]; exact ⟨hok.1, hok.2.1⟩⟩
  · have h0 := h.mod D hD fun c hc => hr c (by simp only [List.mem_append] at hc ⊢; tauto)
    refine mod_of (fun i hne => h0.resp hne) fun m hm => ?_
    rcases (hroot m).1 hm with h1 | rfl
    · exact h0.root m h1.1 h1.2
    · exact (hr [m] (by simp)).1 m (by simp) (by simp)
  · refine rup_of_no_closed fun D hD hr hx => ?_
    have hc : c ∈ F ++ adds db.cert ++ [[l]] := by
      have : c ∈ adds (db.log (.add [l])).cert := by rw [e]; simp
      rw [adds_log_add] at this
      simp only [List.mem_append] at this ⊢; tauto
    obtain ⟨y, hy, hn⟩ := (hr c (List.mem_append_left _ hc)).2
    exact hn (hx y hy)
  · rw [List.append_assoc]
    obtain ⟨g1, g2⟩ := h.chk.grow (E := adds db.cert ++ [[l]]) fun c hc => by simp [hc]
    exact g1.log h.rinv.wf (g2 _ (by simp)) fun m hm => ((hroot m).1 hm).imp id fun e => by rw [e]

/-- The state while literals are asserted without reason. -/
structure AOK (F : Form) (nv : Nat) (x : DS) : Prop where
  glob : Glob F x.1 x.2 []
  lim : x.2.lim = []
  saved : x.2.saved = []
  unl : Unl x.1
  nv : x.2.numVars = nv

theorem AOK.assume {F : Form} {nv : Nat} {x : DS} (h : AOK F nv x) {l : Lit} (hn : x.2.assign l.var = none) (h1 : 1 ≤ l.var) (h2 : l.var ≤ nv) :
    ∃ F' y, (∀ c ∈ F, c ∈ F') ∧ x.2.assignRootRes (x.1.log (.add [l])) l = .ok y ∧ AOK F' nv y := by
  have hok : Okv x.2 l.var := by
    refine ⟨h1, by rw [h.nv]; exact h2, ?_⟩
    cases he : x.2.elim l.var with
    | false => rfl
    | true => obtain ⟨r, hr, -⟩ := h.glob.st.cover _ he; simp at hr
  obtain ⟨s', e, g, hl, hs, hnv⟩ := h.glob.assume h.lim hn hok
  exact ⟨_, _, fun c hc => by simp [hc], e, g, hl, hs.trans h.saved, h.unl, hnv.trans h.nv⟩

theorem pureLoop_any {nv cnf : Nat} {e : El} : ∀ {n vi : Nat} {F : Form} {x y : DS}, AOK F nv x → 1 ≤ vi → vi + n ≤ nv + 1 →
    pureLoop cnf e n vi x = .ok y → ∃ F', (∀ c ∈ F, c ∈ F') ∧ AOK F' nv y
  | 0, _, F, x, y, h, _, _, he => by simp only [pureLoop, Res.ok.injEq] at he; subst he; exact ⟨F, fun _ h => h, h⟩
  | n + 1, vi, F, x, y, h, h1, h2, he => by
    unfold pureLoop at he
    split at he
    · exact pureLoop_any h (by omega) (by omega) he
    rename_i hn
    have hn : x.2.assign vi = none := by simpa using hn
    split at he
    · simp at he
    split at he
    · exact pureLoop_any h (by omega) (by omega) he
    split at he
    · obtain ⟨F', z, hF, e1, hz⟩ := h.assume (l := ⟨vi, true⟩) hn h1 (show vi ≤ nv by omega)
      rw [e1] at he
      obtain ⟨F2, hF2, hy⟩ := pureLoop_any hz (by omega) (by omega) he
      exact ⟨F2, fun c hc => hF2 c (hF c hc), hy⟩
    split at he
    · obtain ⟨F', z, hF, e1, hz⟩ := h.assume (l := ⟨vi, false⟩) hn h1 (show vi ≤ nv by omega)
      rw [e1] at he
      obtain ⟨F2, hF2, hy⟩ := pureLoop_any hz (by omega) (by omega) he
      exact ⟨F2, fun c hc => hF2 c (hF c hc), hy⟩
    · exact pureLoop_any h (by omega) (by omega) he

/-- The state after preprocessing, with or without the eliminator, is one of a solver that was given `F` and maybe more. -/
theorem preprocess_any {F : Form} {cfg : Cfg} {o : Pre} {x y : Sol} (h : BOK F x) (e : preprocess cfg o x = .ok y) :
    ∃ F', (∀ c ∈ F, c ∈ F') ∧ SOK F' x.s.numVars y := by
  by_cases hen : cfg.enable = true
  · have := preprocess_spec hen (o := o) h
    rw [e] at this
    exact ⟨F, fun _ h => h, this.1⟩
  have hen : cfg.enable = false := by simpa using hen
  unfold preprocess at e
  split at e
  · simp at e
  have g := h.glob
  have hv := rg_vivify (r := true) (targets := o.targets) (x := (x.db, x.s)) h.rinv h.lim h.dom
  cases hr : vivify o.targets (x.db, x.s) with
  | ok x1 =>
    rw [hr] at hv e
    obtain ⟨t1, l1⟩ := hv
    simp only [id] at t1
    have g1 := g.step t1
    have hp := rg_propagate (k := true) (r := true) g1.rinv l1
    simp only [Res.bind] at e
    cases hr2 : (Stk.propagateSandbox x1.1 x1.2).toRes with
    | ok x2 =>
      rw [hr2] at hp e
      obtain ⟨t2, l2⟩ := hp
      simp only [id] at t2
      by_cases ho : o.oom1 = true
      · simp [ho, Res.orOom] at e
      simp only [ho, Bool.false_eq_true, if_false, Res.orOom, hen, prepare, Bool.not_false, if_true] at e
      have g2 := g1.step t2
      have hnv : x2.2.numVars = x.s.numVars := t2.sp.numVars.trans t1.sp.numVars
      have hA : AOK F x.s.numVars x2 := ⟨g2, l2, t2.sv rfl (t1.sv rfl h.saved), t2.unl rfl (t1.unl rfl h.unl), hnv⟩
      cases hr4 : pureLoop x.cnf El.new x2.2.numVars 1 x2 with
      | ok x3 =>
        rw [hr4] at e
        obtain ⟨F', hF, h4⟩ := pureLoop_any hA (Nat.le_refl _) (by rw [hnv]; omega) hr4
        refine ⟨F', hF, ?_⟩
        simp only [simplify, Bool.false_eq_true, if_false] at e
        have hq := rg_propagate (k := true) (r := true) h4.glob.rinv h4.lim
        cases hr5 : (Stk.propagateSandbox x3.1 x3.2).toRes with
        | ok x4 =>
          rw [hr5] at hq e
          obtain ⟨t5, l5⟩ := hq
          simp only [id] at t5
          by_cases ho2 : o.oom2 = true
          · simp [ho2, Res.bind] at e
          simp only [ho2, Bool.false_eq_true, if_false, Res.bind, Res.ok.injEq] at e
          have := rebuildOrder_sok (h4.glob.step t5) (t5.sv rfl h4.saved) (t5.unl rfl h4.unl) x.cnf
          rw [t5.sp.numVars.trans h4.nv] at this
          rw [h.store] at e
          subst e
          simpa [El.new, encode] using this
        | unsat db s =>
          rw [hr5] at e
          simp only [Res.bind] at e
          cases ho2 : o.oom2 <;> rw [ho2] at e <;> simp at e
        | _ => rw [hr5] at e; simp [Res.bind] at e
      | _ => rw [hr4] at e; simp at e
    | unsat db s => 
      rw [hr2] at e
      simp only [Res.orOom] at e
      cases ho2 : o.oom1 <;> rw [ho2] at e <;> simp at e
    | _ => rw [hr2] at e; simp [Res.orOom] at e
  | _ => rw [hr] at e; simp [Res.bind] at e

/-! ## extending the model -/

theorem ofOrd_ord (n : Nat) : (Lit.ofOrd n).ord = n := by
  unfold Lit.ofOrd Lit.ord
  by_cases h : n % 2 = 1
  · simp [h]; omega
  · simp [h]; omega

/-- The partial model agrees with the total assignment. -/
def Agr (m : Nat → Option Bool) (a : Asg) : Prop := ∀ v, m v = none ∨ m v = some (a v)

theorem extendLoop_spec : ∀ (recs : List Rec) (n : Nat) (m : Nat → Option Bool) (a : Asg), (encode recs).length ≤ n → Agr m a →
    (∀ pre r post, recs = pre ++ r :: post → ∀ x ∈ r.2, m x.var ≠ none ∨ ∃ r' ∈ post, r'.2 = [] ∧ r'.1.var = x.var) →
    ∃ m', extendLoop n (encode recs).reverse m = some m' ∧ Agr m' (extR recs a) ∧ (∀ v, m v ≠ none → m' v ≠ none) ∧
      (∀ r ∈ recs, r.2 = [] → m' r.1.var ≠ none) := by
  intro recs
  induction recs using List.reverseRecOn with
  | nil =>
    intro n m a _ h _
    exact ⟨m, by simp [encode, extendLoop], h, fun _ h => h, by simp⟩
  | append_singleton recs r ih =>
    intro n m a hn h ho
    have hen : encode (recs ++ [r]) = encode recs ++ ((r.1 :: r.2) ++ [Lit.ofOrd (r.2.length + 1)]) := by rw [encode_append]; simp [encode]
    have hrev : (encode (recs ++ [r])).reverse = Lit.ofOrd (r.2.length + 1) :: ((r.1 :: r.2).reverse ++ (encode recs).reverse) := by
      rw [hen]; simp
    rw [hrev]
    rw [hen] at hn
    simp only [List.length_append, List.length_cons, List.length_nil] at hn
    obtain ⟨n, rfl⟩ : ∃ k, n = k + 1 := ⟨n - 1, by omega⟩
    have hlen : (r.1 :: r.2).reverse.length = r.2.length + 1 := by simp
    have htake : (((r.1 :: r.2).reverse ++ (encode recs).reverse).take (Lit.ofOrd (r.2.length + 1)).ord).reverse = r.1 :: r.2 := by
      rw [ofOrd_ord, ← hlen, List.take_left]; simp
    have hdrop : ((r.1 :: r.2).reverse ++ (encode recs).reverse).drop (Lit.ofOrd (r.2.length + 1)).ord = (encode recs).reverse := by
      rw [ofOrd_ord, ← hlen, List.drop_left]
    have hdef : ∀ x ∈ r.2, m x.var = some (a x.var) := by
      intro x hx
      rcases ho recs r [] (by simp) x hx with h1 | ⟨r', hr', -⟩
      · exact (h x.var).resolve_left h1
      · simp at hr'
    have hiff : r.2.all (fun l => m l.var == some !l.pos) = r.2.all (fun x => a x.var != x.pos) := by
      have : ∀ l : List Lit, (∀ x ∈ l, m x.var = some (a x.var)) → l.all (fun l => m l.var == some !l.pos) = l.all (fun x => a x.var != x.pos) := by
        intro l hl
        induction l with
        | nil => rfl
        | cons y l ihl =>
          simp only [List.all_cons]
          rw [ihl fun x hx => hl x (by simp [hx]), hl y (by simp)]
          cases a y.var <;> cases y.pos <;> rfl
      exact this _ hdef
    unfold extendLoop
    rw [htake]
    simp only []
    rw [if_neg (by rw [ofOrd_ord, List.length_append, hlen]; omega), hdrop, hiff]
    rw [extR_append]
    by_cases hall : r.2.all (fun x => a x.var != x.pos) = true
    · rw [if_pos hall]
      have hext : extR [r] a = upd a r.1.var r.1.pos := by show extRec r a = _; unfold extRec; rw [if_pos hall]
      rw [hext]
      obtain ⟨m', e, h1, h2, h3⟩ := ih n (upd m r.1.var (some r.1.pos)) (upd a r.1.var r.1.pos) (by omega) (by
        intro v
        by_cases e : v = r.1.var
        · subst e; right; simp
        · rw [upd_of_ne _ _ e, upd_of_ne _ _ e]; exact h v) (by
        intro pre q post e x hx
        by_cases ev : x.var = r.1.var
        · left; rw [ev]; simp
        · rcases ho pre q (post ++ [r]) (by rw [e]; simp) x hx with h1 | ⟨r', hr', h1⟩
          · left; rw [upd_of_ne _ _ ev]; exact h1
          · rcases List.mem_append.1 hr' with hr' | hr'
            · exact .inr ⟨r', hr', h1⟩
            · simp at hr'; subst hr'; exact absurd h1.2.symm ev)
      refine ⟨m', e, h1, fun v hv => h2 v ?_, ?_⟩
      · by_cases e : v = r.1.var
        · subst e; simp
        · rw [upd_of_ne _ _ e]; exact hv
      · intro q hq hq2
        rcases List.mem_append.1 hq with hq | hq
        · exact h3 q hq hq2
        · simp at hq; subst hq; exact h2 _ (by simp)
    · rw [if_neg hall]
      have hext : extR [r] a = a := by show extRec r a = _; unfold extRec; rw [if_neg hall]
      rw [hext]
      have hne : r.2 ≠ [] := by intro e; rw [e] at hall; simp at hall
      obtain ⟨m', e, h1, h2, h3⟩ := ih n m a (by omega) h (by
        intro pre q post e x hx
        rcases ho pre q (post ++ [r]) (by rw [e]; simp) x hx with h1 | ⟨r', hr', h1⟩
        · exact .inl h1
        · rcases List.mem_append.1 hr' with hr' | hr'
          · exact .inr ⟨r', hr', h1⟩
          · simp at hr'; subst hr'; exact absurd h1.1 hne)
      refine ⟨m', e, h1, h2, ?_⟩
      intro q hq hq2
      rcases List.mem_append.1 hq with hq | hq
      · exact h3 q hq hq2
      · simp at hq; subst hq; exact absurd hq2 hne

/-- The records only change eliminated variables. -/
theorem extR_other {recs : List Rec} {v : Nat} (h : ∀ r ∈ recs, r.1.var ≠ v) (a : Asg) : extR recs a v = a v := by
  induction recs with
  | nil => rfl
  | cons r recs ih =>
    have : extR (r :: recs) a = extRec r (extR recs a) := rfl
    rw [this]; unfold extRec
    split
    · rw [upd_of_ne _ _ (Ne.symm (h r (by simp)))]; exact ih fun q hq => h q (by simp [hq])
    · exact ih fun q hq => h q (by simp [hq])

/-! ## the end of the search -/

/-- When nothing is left to decide every variable has a value or is eliminated. -/
theorem all_assigned {db : Cdb} {s : Stk} (hi : Inv db s) (hd : Dom db s) (hc : Cnt s) (h0 : s.unassigned = 0) :
    ∀ v, 1 ≤ v → v ≤ s.numVars → s.assign v ≠ none ∨ s.elim v = true := by
  obtain ⟨A, E, a1, a2, a3, e1, e2, e3⟩ := hc
  have hnd : (A ++ s.trail.map Lit.var ++ E).Nodup := by
    refine List.nodup_append.2 ⟨List.nodup_append.2 ⟨a1, hi.nd, ?_⟩, e1, ?_⟩
    · rintro v hv w hw rfl; exact ((a3 v).1 hv).2 hw
    · rintro v hv w hw rfl
      have hne : s.assign v ≠ none := by
        rcases List.mem_append.1 hv with hv | hv
        · exact ((a3 v).1 hv).1
        · obtain ⟨l, hl, rfl⟩ := List.mem_map.1 hv; exact tr_assigned (hi.tv l hl)
      have := (hd.as v hne).2.2
      rw [((e3 v).1 hw).1] at this; exact absurd this (by simp)
  have hmem : ∀ v ∈ A ++ s.trail.map Lit.var ++ E, 1 ≤ v ∧ v ≤ s.numVars := by
    intro v hv
    rcases List.mem_append.1 hv with hv | hv
    · have hne : s.assign v ≠ none := by
        rcases List.mem_append.1 hv with hv | hv
        · exact ((a3 v).1 hv).1
        · obtain ⟨l, hl, rfl⟩ := List.mem_map.1 hv; exact tr_assigned (hi.tv l hl)
      have := hd.as v hne; exact ⟨this.1, this.2.1⟩
    · exact ((e3 v).1 hv).2
  have hlen : (A ++ s.trail.map Lit.var ++ E).length = s.numVars := by
    unfold Stk.unassigned at h0
    simp only [List.length_append, List.length_map]; omega
  have hsub : (A ++ s.trail.map Lit.var ++ E).toFinset ⊆ Finset.Icc 1 s.numVars := by
    intro v hv; rw [List.mem_toFinset] at hv; exact Finset.mem_Icc.2 (hmem v hv)
  have heq : (A ++ s.trail.map Lit.var ++ E).toFinset = Finset.Icc 1 s.numVars := by
    refine Finset.eq_of_subset_of_card_le hsub ?_
    rw [List.toFinset_card_of_nodup hnd, hlen, Nat.card_Icc]; omega
  intro v h1 h2
  have hv : v ∈ (A ++ s.trail.map Lit.var ++ E).toFinset := by rw [heq]; exact Finset.mem_Icc.2 ⟨h1, h2⟩
  rw [List.mem_toFinset] at hv
  rcases List.mem_append.1 hv with hv | hv
  · left
    rcases List.mem_append.1 hv with hv | hv
    · exact ((a3 v).1 hv).1
    · obtain ⟨l, hl, rfl⟩ := List.mem_map.1 hv; exact tr_assigned (hi.tv l hl)
  · exact .inr ((e3 v).1 hv).1

/-- `extend_model` never fails, and gives a value to every variable. -/
theorem extendModel_spec {F : Form} {x : Sol} {recs : List Rec} (g : Glob F x.db x.s recs) (hs : x.store = encode recs) (h0 : x.s.unassigned = 0) :
    ∃ m, extendModel x.store x.s.assign = some m ∧ Agr m (extR recs fun v => (x.s.assign v).getD false) ∧
      (∀ v, 1 ≤ v → v ≤ x.s.numVars → m v ≠ none) ∧ (∀ v, x.s.elim v = false → x.s.assign v ≠ none → m v = x.s.assign v) := by
  have hall := all_assigned g.rinv.inv g.dom g.cnt h0
  obtain ⟨m, e, h1, h2, h3⟩ := extendLoop_spec recs (encode recs).length x.s.assign (fun v => (x.s.assign v).getD false) (Nat.le_refl _)
    (fun v => by cases h : x.s.assign v <;> simp [h]) (fun pre r post e y hy => by
      obtain ⟨o1, o2, o3⟩ := g.st.ord pre r post e y hy
      rcases o3 with o3 | o3
      · rcases hall _ o1 o2 with h | h
        · exact .inl h
        · rw [o3] at h; exact absurd h (by simp)
      · exact .inr o3)
  refine ⟨m, by unfold extendModel; rw [hs]; exact e, h1, fun v a b => ?_, fun v he hn => ?_⟩
  · rcases hall v a b with h | h
    · exact h2 v h
    · obtain ⟨r, hr, hr2, rfl⟩ := g.st.cover v h
      exact h3 r hr hr2
  · have hm := (h1 v).resolve_left (h2 v hn)
    rw [hm, extR_other fun r hr e => ?_]
    · cases h : x.s.assign v with
      | none => exact absurd h hn
      | some b => rfl
    · have := g.st.tgt r hr; rw [e, he] at this; exact absurd this (by simp)

theorem Form.sat_congr {F : Form} {n : Nat} (hr : Rng F n) {a b : Asg} (h : ∀ v, 1 ≤ v → v ≤ n → a v = b v) (hs : Form.sat a F) : Form.sat b F := by
  intro c hc
  obtain ⟨l, hl, h1⟩ := hs c hc
  refine ⟨l, hl, ?_⟩
  unfold Lit.sat at *
  obtain ⟨r1, r2⟩ := hr c hc l hl
  rw [← h _ r1 r2]; exact h1

theorem mapM_some {α β : Type} {f : α → Option β} : ∀ {l : List α} {r : List β}, l.mapM f = some r →
    r.length = l.length ∧ ∀ i (hi : i < l.length) (hr : i < r.length), f l[i] = some r[i]
  | [], r, h => by simp at h; subst h; simp
  | a :: l, r, h => by
    rw [List.mapM_cons] at h
    cases hf : f a with
    | none => rw [hf] at h; simp at h
    | some b =>
      rw [hf] at h
      cases hm : l.mapM f with
      | none => rw [hm] at h; simp at h
      | some r' =>
        rw [hm] at h
        have hr : r = b :: r' := by simpa using h.symm
        subst hr
        obtain ⟨h1, h2⟩ := mapM_some hm
        refine ⟨by simp [h1], fun i hi hr => ?_⟩
        rcases i with _ | i
        · simpa using hf
        · simp at hi hr ⊢; exact h2 i hi hr

theorem mapM_isSome {α β : Type} {f : α → Option β} : ∀ {l : List α}, (∀ a ∈ l, f a ≠ none) → ∃ r, l.mapM f = some r
  | [], _ => ⟨[], by simp⟩
  | a :: l, h => by
    obtain ⟨b, hb⟩ := Option.ne_none_iff_exists'.1 (h a (by simp))
    obtain ⟨r, hr⟩ := mapM_isSome (l := l) fun x hx => h x (by simp [hx])
    exact ⟨b :: r, by rw [List.mapM_cons, hb, hr]; rfl⟩

theorem modelVals_spec {m : Nat → Option Bool} {nv : Nat} {vals : List Int} (h : modelVals m nv = some vals) :
    vals.length = nv ∧ ∀ i (hi : i < vals.length), ∃ b, m (i + 1) = some b ∧ vals[i] = (Lit.mk (i + 1) b).toInt := by
  unfold modelVals at h
  obtain ⟨h1, h2⟩ := mapM_some h
  rw [List.length_range] at h1
  refine ⟨h1, fun i hi => ?_⟩
  have := h2 i (by rw [List.length_range]; omega) hi
  rw [List.getElem_range] at this
  obtain ⟨b, hb, e⟩ := Option.map_eq_some_iff.1 this
  exact ⟨b, hb, e.symm⟩

theorem modelVals_canonical {m : Nat → Option Bool} {nv : Nat} {vals : List Int} (h : modelVals m nv = some vals) : Canonical vals nv := by
  obtain ⟨h1, h2⟩ := modelVals_spec h
  refine ⟨h1, fun i hi => ?_⟩
  obtain ⟨b, -, e⟩ := h2 i hi
  rw [e]; cases b
  · right; simp [Lit.toInt]
  · left; simp [Lit.toInt]

theorem modelVals_asg {m : Nat → Option Bool} {nv : Nat} {vals : List Int} (h : modelVals m nv = some vals) {v : Nat} (h1 : 1 ≤ v) (h2 : v ≤ nv) :
    m v = some (valsAsg vals v) := by
  obtain ⟨e1, e2⟩ := modelVals_spec h
  obtain ⟨i, rfl⟩ : ∃ i, v = i + 1 := ⟨v - 1, by omega⟩
  obtain ⟨b, hb, e⟩ := e2 i (by omega)
  rw [hb]
  congr 1
  unfold valsAsg
  cases b with
  | true =>
    symm; rw [decide_eq_true_eq]
    have : (((i + 1 : Nat)) : Int) = vals[i]'(by omega) := by rw [e]; simp [Lit.toInt]
    rw [this]; exact List.getElem_mem _
  | false =>
    symm; rw [decide_eq_false_iff_not]
    intro hm
    obtain ⟨j, hj, ej⟩ := List.mem_iff_getElem.1 hm
    obtain ⟨b', -, e'⟩ := e2 j hj
    rw [e'] at ej
    cases b' with
    | true =>
      simp only [Lit.toInt, if_true] at ej
      have : j = i := by omega
      subst this; rw [e] at e'
      simp only [Lit.toInt, if_true, Bool.false_eq_true, if_false] at e'; omega
    | false => simp only [Lit.toInt, Bool.false_eq_true, if_false] at ej; omega

/-- The answer SAT. -/
theorem finish_spec {F : Form} {nv : Nat} {low : Nat → Bool} {x : Sol} (h : SOK F nv x) (hr : x.s.running = false) :
    finish low x = .err ∨ ∃ vals y, finish low x = .sat vals y ∧ Canonical vals nv ∧
      (∀ G : Form, (∀ c ∈ G, c ∈ F) → Rng G nv → Form.sat (valsAsg vals) G) := by
  obtain ⟨rfl⟩ := h.nvar
  obtain ⟨recs, g, hs⟩ := h.glob
  have h0 : x.s.unassigned = 0 := by
    unfold Stk.running at hr; simp at hr; exact hr.1
  obtain ⟨m, e, hag, hdef, hold⟩ := extendModel_spec g hs h0
  unfold finish
  rw [e]
  simp only []
  cases hv : x.db.validate m false with
  | some c => exact .inl rfl
  | none =>
    right
    simp only []
    have hmv : ∃ vals, modelVals m x.s.numVars = some vals := by
      refine mapM_isSome fun i hi => ?_
      have := hdef (i + 1) (by omega) (by rw [List.mem_range] at hi; omega)
      simpa using this
    obtain ⟨vals, ev⟩ := hmv
    rw [ev]
    refine ⟨vals, _, rfl, modelVals_canonical ev, fun G hG hrng => ?_⟩
    have hcl := (validate_loose g.rinv.wf m).1 hv
    set a : Asg := fun v => (x.s.assign v).getD false with ha
    have hlits : ∀ i, ∀ l ∈ (x.db.clause i).lits, m l.var = some (a l.var) ∧ x.s.assign l.var ≠ none := by
      intro i l hl
      obtain ⟨o1, o2, o3⟩ := g.dom.cl i l hl
      have hn : x.s.assign l.var ≠ none := by
        rcases all_assigned g.rinv.inv g.dom g.cnt h0 _ o1 o2 with h | h
        · exact h
        · rw [o3] at h; exact absurd h (by simp)
      refine ⟨?_, hn⟩
      rw [hold _ o3 hn]
      obtain ⟨b, hb⟩ := Option.ne_none_iff_exists'.1 hn
      rw [ha]; simp only [hb]; rfl
    have hp : SatP x.db a := by
      intro i hi _
      obtain ⟨l, hl, hne⟩ := hcl i hi
      refine ⟨l, hl, ?_⟩
      rw [(hlits i l hl).1] at hne
      unfold Lit.sat
      cases h1 : a l.var <;> cases h2 : l.pos <;> simp [h1, h2] at hne ⊢
    have hu : SatU x.s a := by
      intro l hl
      unfold Lit.sat
      have : x.s.assign l.var = some l.pos := hl.1
      rw [ha]; simp [this]
    refine Form.sat_congr hrng (fun v h1 h2 => ?_) (fun c hc => g.ext a hp hu c (hG c hc))
    have h3 := (hag v).resolve_left (hdef v h1 h2)
    rw [modelVals_asg ev h1 h2] at h3
    simpa using h3.symm

/-- `solve` of a solver that was given `F`. -/
theorem solve_spec {F : Form} {cfg : Cfg} (hen : cfg.enable = true) {p : Pre} {os : List Orc} {low : Nat → Bool} {x : Sol} (h : BOK F x) :
    match solve cfg p os low x with
    | .sat vals _ => Canonical vals x.s.numVars ∧ (Rng F x.s.numVars → Form.sat (valsAsg vals) F)
    | .unsat db => Certified F x.s.numVars db.cert
    | .more y => SOK F x.s.numVars y
    | _ => True := by
  have h1 : SR F x.s.numVars (SOK F x.s.numVars) ((preprocess cfg p x).bind (search cfg os)) :=
    (preprocess_spec hen h).bind fun y hy => search_spec hy.1
  unfold solve
  cases hr : (preprocess cfg p x).bind (search cfg os) with
  | ok y =>
    rw [hr] at h1
    simp only []
    by_cases hrun : y.s.running = true
    · rw [if_pos hrun]; exact h1
    · rw [if_neg hrun]
      rcases finish_spec (low := low) h1 (by simpa using hrun) with e | ⟨vals, z, e, hc, hm⟩
      · rw [e]; trivial
      · rw [e]; exact ⟨hc, hm F fun _ h => h⟩
  | unsat db s => rw [hr] at h1; exact h1
  | _ => trivial

/-- The answer SAT is right whether or not the eliminator is enabled. -/
theorem solve_sat_any {F : Form} {cfg : Cfg} {p : Pre} {os : List Orc} {low : Nat → Bool} {x : Sol} (h : BOK F x) (hF : Rng F x.s.numVars)
    {vals : List Int} {y : Sol} (e : solve cfg p os low x = .sat vals y) : Canonical vals x.s.numVars ∧ Form.sat (valsAsg vals) F := by
  unfold solve at e
  cases hp : preprocess cfg p x with
  | ok z =>
    obtain ⟨F', hF', hz⟩ := preprocess_any h hp
    rw [hp] at e
    simp only [Res.bind] at e
    have hs := search_spec (cfg := cfg) (os := os) hz
    cases hr : search cfg os z with
    | ok u =>
      rw [hr] at hs e
      simp only [] at e
      by_cases hrun : u.s.running = true
      · rw [if_pos hrun] at e; simp at e
      · rw [if_neg hrun] at e
        rcases finish_spec (low := low) hs (by simpa using hrun) with e' | ⟨vals', y', e', hc, hm⟩
        · rw [e'] at e; simp at e
        · rw [e'] at e
          simp only [Ans.sat.injEq] at e
          obtain ⟨rfl, rfl⟩ := e
          exact ⟨hc, hm F hF' hF⟩
    | _ => rw [hr] at e; simp at e
  | _ => rw [hp] at e; simp [Res.bind] at e

end Splr
