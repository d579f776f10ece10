import Verif.Lemmas.SolveSpec
/-! `solve` on a solver that has answered before. -/
namespace Splr
open Stk

/-- A formula that contains `F` and is satisfiable if `F` is. -/
def Conservative (F G : Form) : Prop := (∀ c ∈ F, c ∈ G) ∧ (F.Satisfiable → G.Satisfiable)

theorem Conservative.refl (F : Form) : Conservative F F := ⟨fun _ h => h, id⟩

theorem Conservative.trans {F G H : Form} (h1 : Conservative F G) (h2 : Conservative G H) : Conservative F H :=
  ⟨fun c hc => h2.1 c (h1.1 c hc), h2.2 ∘ h1.2⟩

/-- Asserting a pure literal is conservative. -/
theorem Glob.pure_conservative {F : Form} {db : Cdb} {s : Stk} (h : Glob F db s []) {l : Lit} (hn : s.assign l.var = none)
    (hp : ∀ i, l.neg ∉ (db.clause i).lits) : Conservative F (F ++ adds db.cert ++ [[l]]) := by
  refine ⟨fun c hc => by simp [hc], fun hs => ?_⟩
  obtain ⟨b, hb⟩ := h.cert.sat hs
  have hm := h.mod (fun x => x.sat b) (cons_of_asg b) fun c hc => .of_sat (hb c hc)
  have hl : SatL db b := by
    intro i hi
    obtain ⟨y, hy, hny⟩ := hm.conf i hi
    exact ⟨y, hy, by simpa using hny⟩
  have hu : SatU s b := fun x hx => hm.root x hx.1 hx.2
  have hkeep : ∀ x : Lit, x ≠ l.neg → x.sat b → x.sat (upd b l.var l.pos) := by
    intro x hx hs
    by_cases e : x.var = l.var
    · rcases Lit.eq_or_eq_neg_of_var e with rfl | rfl
      · simp [Lit.sat]
      · exact absurd rfl hx
    · exact (sat_upd_of_ne e).2 hs
  have hp2 : SatP db (upd b l.var l.pos) := by
    intro i hi _
    obtain ⟨x, hx, hs⟩ := hl i hi
    exact ⟨x, hx, hkeep x (by rintro rfl; exact hp i hx) hs⟩
  have hu2 : SatU s (upd b l.var l.pos) := fun x hx => hkeep x (by
    rintro rfl; have := tr_assigned hx.1; rw [Lit.neg_var] at this; exact this hn) (hu x hx)
  refine ⟨upd b l.var l.pos, fun c hc => ?_⟩
  have : (c ∈ F ∨ c ∈ adds db.cert) ∨ c = [l] := by simp only [List.mem_append, List.mem_singleton] at hc; tauto
  rcases this with (hc | hc) | rfl
  · exact h.ext _ hp2 hu2 c hc
  · exact h.all rfl _ hp2 hu2 c hc
  · exact ⟨l, by simp, by simp [Lit.sat]⟩

/-- The state while pure literals are asserted, in a later call. -/
structure QOK (F : Form) (nv : Nat) (e : El) (x : DS) : Prop where
  glob : Glob F x.1 x.2 []
  lim : x.2.lim = []
  saved : x.2.saved = []
  nv : x.2.numVars = nv
  occ : OccInv e x.1 x.2

theorem QOK.assert {F : Form} {nv : Nat} {e : El} {x : DS} (h : QOK F nv e x) {l : Lit} (hn : x.2.assign l.var = none) (h1 : 1 ≤ l.var)
    (h2 : l.var ≤ nv) (hab : e.aborted l.var = false) (ho : e.occ l.neg = []) :
    ∃ F' y, Conservative F F' ∧ x.2.assignRootRes (x.1.log (.add [l])) l = .ok y ∧ QOK F' nv e y := by
  have hp : ∀ i, l.neg ∉ (x.1.clause i).lits := by
    intro i hi
    have := h.occ i l.neg hi (by rw [Lit.neg_var]; exact hab)
    rw [ho] at this; simp at this
  have hok : Okv x.2 l.var := by
    refine ⟨h1, by rw [h.nv]; exact h2, ?_⟩
    cases he : x.2.elim l.var with
    | false => rfl
    | true => obtain ⟨r, hr, -⟩ := h.glob.st.cover _ he; simp at hr
  obtain ⟨s', e', g, hl, hs, hnv⟩ := h.glob.assume h.lim hn hok
  obtain ⟨s2, e2, -, -, htr, -⟩ := assignRoot_new h.glob.rinv.inv h.lim hn
  have hss : s2 = s' := by
    have e3 : x.2.assignRootRes (x.1.log (.add [l])) l = .ok (x.1.log (.add [l]), s2) := by unfold Stk.assignRootRes; rw [e2]
    rw [e'] at e3; simpa using e3.symm
  subst hss
  refine ⟨_, _, h.glob.pure_conservative hn hp, e', g, hl, hs.trans h.saved, hnv.trans h.nv, h.occ.mono (fun i m hm => hm) fun v hv => ?_⟩
  obtain ⟨b, hb⟩ := tr_of_assign hv
  exact tr_assigned ((htr ⟨v, b⟩).2 (.inl hb))

theorem pureLoop_again {nv cnf : Nat} {e : El} : ∀ {n vi : Nat} {F : Form} {x : DS}, QOK F nv e x → 1 ≤ vi → vi + n ≤ nv + 1 →
    match pureLoop cnf e n vi x with
    | .ok y => ∃ F', Conservative F F' ∧ QOK F' nv e y
    | .unsat _ _ => False
    | _ => True
  | 0, _, F, x, h, _, _ => ⟨F, .refl F, h⟩
  | n + 1, vi, F, x, h, h1, h2 => by
    have hstep : ∀ l : Lit, l.var = vi → x.2.assign vi = none → e.aborted vi = false → e.occ l.neg = [] →
        match (x.2.assignRootRes (x.1.log (.add [l])) l).bind (pureLoop cnf e n (vi + 1)) with
        | .ok y => ∃ F', Conservative F F' ∧ QOK F' nv e y
        | .unsat _ _ => False
        | _ => True := by
      rintro l rfl hn hab ho
      obtain ⟨F1, z, c1, e1, hz⟩ := h.assert hn h1 (by omega) hab ho
      rw [e1]
      have := pureLoop_again (cnf := cnf) (n := n) (vi := l.var + 1) hz (by omega) (by omega)
      simp only [Res.bind]
      cases hr : pureLoop cnf e n (l.var + 1) z with
      | ok y => rw [hr] at this; obtain ⟨F2, c2, h2⟩ := this; exact ⟨F2, c1.trans c2, h2⟩
      | unsat db s => rw [hr] at this; exact this
      | _ => trivial
    unfold pureLoop
    by_cases hn : x.2.assign vi = none
    swap
    · rw [if_pos hn]; exact pureLoop_again h (by omega) (by omega)
    rw [if_neg (by simpa using hn)]
    by_cases hc : cnf + 1 < vi
    · rw [if_pos hc]; trivial
    rw [if_neg hc]
    by_cases hab : e.aborted vi = true
    · rw [if_pos hab]; exact pureLoop_again h (by omega) (by omega)
    rw [if_neg hab]
    have hab : e.aborted vi = false := by simpa using hab
    by_cases ho : e.neg vi = []
    · rw [if_pos ho]; exact hstep ⟨vi, true⟩ rfl hn hab (by simpa [El.occ, Lit.neg] using ho)
    rw [if_neg ho]
    by_cases ho : e.pos vi = []
    · rw [if_pos ho]; exact hstep ⟨vi, false⟩ rfl hn hab (by simpa [El.occ, Lit.neg] using ho)
    · rw [if_neg ho]; exact pureLoop_again h (by omega) (by omega)

/-- A solver that is about a conservative extension of `F`, with nothing eliminated and no saved trail. -/
structure AgOK (F : Form) (x : Sol) : Prop where
  aok : ∃ G, Conservative F G ∧ AOK G x.s.numVars (x.db, x.s)
  store : x.store = []

theorem BOK.agOK {F : Form} {x : Sol} (h : BOK F x) : AgOK F x :=
  ⟨⟨F, .refl F, h.glob, h.lim, h.saved, h.unl, rfl⟩, h.store⟩

/-- The outcome of `preprocess` in a later call. -/
theorem preprocess_again {F : Form} {cfg : Cfg} (hen : cfg.enable = true) {o : Pre} {x : Sol} (h : AgOK F x) :
    match preprocess cfg o x with
    | .ok y => ∃ G, Conservative F G ∧ SOK G x.s.numVars y
    | .unsat _ _ => ¬ F.Satisfiable
    | _ => True := by
  obtain ⟨G, hG, ha⟩ := h.aok
  have g := ha.glob
  have key : ∀ {G' : Form} {st : List Cls}, Conservative F G' → Refutation G' st → ¬ F.Satisfiable := fun hc hr hs => hr.sound (hc.2 hs)
  unfold preprocess
  by_cases hoom : o.oom = true
  · rw [if_pos hoom]; trivial
  rw [if_neg hoom]
  have hv := rg_vivify (r := true) (targets := o.targets) (x := (x.db, x.s)) g.rinv ha.lim g.dom
  cases hr : vivify o.targets (x.db, x.s) with
  | unsat db s => rw [hr] at hv; exact key hG (g.refuted hv).1
  | err => trivial
  | panic => trivial
  | fuel => trivial
  | ok x1 =>
  rw [hr] at hv
  obtain ⟨t1, l1⟩ := hv
  simp only [id] at t1
  have g1 := g.step t1
  have v1 := t1.sv rfl ha.saved
  have hp := rg_propagate (k := true) (r := true) g1.rinv l1
  simp only [Res.bind]
  cases hr2 : (Stk.propagateSandbox x1.1 x1.2).toRes with
  | unsat db s =>
    rw [hr2] at hp
    simp only [Res.orOom]
    cases o.oom1 with
    | true => trivial
    | false => exact key hG (g1.refuted hp).1
  | err => trivial
  | panic => trivial
  | fuel => trivial
  | ok x2 =>
  rw [hr2] at hp
  obtain ⟨t2, l2⟩ := hp
  simp only [id] at t2
  by_cases ho : o.oom1 = true
  · simp only [ho, if_true, Res.orOom]
  simp only [ho, Bool.false_eq_true, if_false, Res.orOom]
  have g2 := g1.step t2
  have v2 := t2.sv rfl v1
  have u2 : Unl x2.1 := t2.unl rfl (t1.unl rfl ha.unl)
  rw [hen]
  cases hr3 : prepare true cfg.evo x.cnf x2 with
  | unsat db s => exact absurd hr3 prepare_not_unsat
  | err => trivial
  | panic => trivial
  | fuel => trivial
  | ok y =>
  obtain ⟨p1, p2, p3, p4⟩ := prepare_spec g2.rinv.wf g2.dom u2 hr3
  simp only []
  have hQ : QOK G x.s.numVars y.2 y.1 := by
    refine ⟨?_, by rw [p1]; exact l2, by rw [p1]; exact v2, by rw [p1]; exact t2.sp.numVars.trans t1.sp.numVars, p4⟩
    rw [p1]; exact g2.step (Tr.flags (r := true) g2.rinv l2 p2)
  have h4 := pureLoop_again (cnf := x.cnf) hQ (n := y.1.2.numVars) (vi := 1) (Nat.le_refl _) (by rw [hQ.nv]; omega)
  cases hr4 : pureLoop x.cnf y.2 y.1.2.numVars 1 y.1 with
  | unsat db s => rw [hr4] at h4; exact h4.elim
  | err => trivial
  | panic => trivial
  | fuel => trivial
  | ok x3 =>
  rw [hr4] at h4
  obtain ⟨H, hH, h4⟩ := h4
  have hE : EOK H x3.2 [] (x3, y.2) := ⟨[], by simpa using h4.glob, p3, h4.lim, h4.occ, id, id, rfl⟩
  have hS := simplify_spec (evo := cfg.evo) (cmds := o.cmds) (oom := o.oom2) hE
  simp only []
  cases hr5 : simplify true cfg.evo o.cmds o.oom2 (x3, y.2) with
  | unsat db s =>
    rw [hr5] at hS
    simp only []
    cases o.oom2 with
    | true => trivial
    | false => exact key (hG.trans hH) hS.1
  | err => trivial
  | panic => trivial
  | fuel => trivial
  | ok z =>
  rw [hr5] at hS
  obtain ⟨recs, g', hb, hl, hu, -, hsv, hnv⟩ := hS
  simp only []
  rw [List.nil_append] at g'
  refine ⟨H, hG.trans hH, ?_⟩
  have := rebuildOrder_sok g' (hsv h4.saved) hu x.cnf
  rw [hnv.trans h4.nv] at this
  rw [h.store, List.nil_append, hb]; exact this

theorem encode_nil {recs : List Rec} (h : encode recs = []) : recs = [] := by
  cases recs with
  | nil => rfl
  | cons r recs => simp [encode] at h

theorem cancelUntil_numVars {s : Stk} {low : Nat → Bool} {lv : Nat} : (s.cancelUntil low lv).numVars = s.numVars := by
  by_cases hl : s.dl ≤ lv
  · rw [cancelUntil_noop hl]
  · obtain ⟨-, -, -, -, -, -, -, f8, -⟩ := saveTrail_fields s low lv
    simp only [Stk.cancelUntil, hl, if_false, unassignFrom]; exact f8

/-- `solve` in a later call: the answers, and the solver afterwards. -/
theorem solve_again_sub {F F0 : Form} (hsub : ∀ c ∈ F0, c ∈ F) {cfg : Cfg} (hen : cfg.enable = true) {p : Pre} {os : List Orc} {low : Nat → Bool} {x : Sol} (h : AgOK F x)
    (hF : Rng F0 x.s.numVars) :
    match solve cfg p os low x with
    | .sat vals y => Canonical vals x.s.numVars ∧ Form.sat (valsAsg vals) F0 ∧ y.s.numVars = x.s.numVars ∧
        (y.store = [] → y.s.saved = [] → AgOK F y)
    | .unsat _ => ¬ F.Satisfiable
    | _ => True := by
  have hp := preprocess_again hen (o := p) h
  unfold solve
  cases hr : preprocess cfg p x with
  | unsat db s => rw [hr] at hp; exact hp
  | err => trivial
  | panic => trivial
  | fuel => trivial
  | ok z =>
  rw [hr] at hp
  obtain ⟨G, hG, hz⟩ := hp
  simp only [Res.bind]
  have hs := search_spec (cfg := cfg) (os := os) hz
  cases hr2 : search cfg os z with
  | unsat db s => rw [hr2] at hs; exact fun hsat => hs.1.sound (hG.2 hsat)
  | err => trivial
  | panic => trivial
  | fuel => trivial
  | ok u =>
  rw [hr2] at hs
  simp only []
  by_cases hrun : u.s.running = true
  · rw [if_pos hrun]; trivial
  rw [if_neg hrun]
  rcases finish_spec (low := low) hs (by simpa using hrun) with e' | ⟨vals, y, e', hc, hm⟩
  · rw [e']; trivial
  rw [e']
  have hy : y = { u with s := ({ u.s with elim := fun v => if v = 0 then u.s.elim 0 else false } : Stk).restart low } := by
    unfold finish at e'
    split at e'
    · simp at e'
    · split at e'
      · simp at e'
      · split at e'
        · simp at e'
        · simp only [Ans.sat.injEq] at e'; exact e'.2.symm
  have hnv : y.s.numVars = x.s.numVars := by
    rw [hy]; show (Stk.cancelUntil _ low 0).numVars = _
    rw [cancelUntil_numVars]; exact hs.nvar
  refine ⟨hc, hm F0 (fun c hc => hG.1 c (hsub c hc)) hF, hnv, fun h1 h2 => ⟨⟨G, hG, ?_⟩, h1⟩⟩
  obtain ⟨recs, g, hst⟩ := hs.glob
  have hu : u.store = [] := by rw [hy] at h1; exact h1
  have hrecs : recs = [] := encode_nil (by rw [← hst]; exact hu)
  subst hrecs
  have hel : ∀ v, u.s.elim v = false := by
    intro v
    cases he : u.s.elim v with
    | false => rfl
    | true => obtain ⟨r, hr, -⟩ := g.st.cover _ he; simp at hr
  have hse : ({ u.s with elim := fun v => if v = 0 then u.s.elim 0 else false } : Stk) = u.s := by
    have : (fun v => if v = 0 then u.s.elim 0 else false) = u.s.elim := by
      funext v; rw [hel v, hel 0]; simp
    rw [this]
  rw [hse] at hy
  have t := Tr.cancelUntil (k := true) g.rinv low 0
  have hys : y.s = u.s.cancelUntil low 0 := by rw [hy]; rfl
  have hyd : y.db = u.db := by rw [hy]
  refine ⟨?_, ?_, h2, ?_, rfl⟩
  · rw [hys, hyd]; exact g.step t
  · rw [hys]; exact cancelUntil_lim0
  · rw [hyd]; exact hs.unl

/-- The case of all given clauses. -/
theorem solve_again {F : Form} {cfg : Cfg} (hen : cfg.enable = true) {p : Pre} {os : List Orc} {low : Nat → Bool} {x : Sol} (h : AgOK F x)
    (hF : Rng F x.s.numVars) :
    match solve cfg p os low x with
    | .sat vals y => Canonical vals x.s.numVars ∧ Form.sat (valsAsg vals) F ∧ y.s.numVars = x.s.numVars ∧
        (y.store = [] → y.s.saved = [] → AgOK F y)
    | .unsat _ => ¬ F.Satisfiable
    | _ => True := solve_again_sub (fun _ h => h) hen h hF

end Splr
