import Verif.Props.C03_C11_Search
/-!
# C14, C15, C16, C17, C18, C19, C44: decisions, preprocessing and inprocessing

The reachable states are those of Model/Reach.lean; the vocabulary is that of Spec/State.lean.
-/
namespace Splr
open Stk

/-! ## transitions keep the models -/

theorem Glob.models {F : Form} {db : Cdb} {s : Stk} {recs : List Rec} (h : Glob F db s recs) {k r : Bool} {db' : Cdb} {s' : Stk}
    (t : Tr k r db s db' s') (b : Asg) : IsModel db' s' b ↔ IsModel db s b := by
  rw [isModel_iff, isModel_iff]
  constructor
  · rintro ⟨h1, h2⟩
    have hu : SatU s b := fun l hl => h2 l (t.root l hl)
    exact ⟨h.imp b (t.back b h1.satP h2) hu, hu⟩
  · rintro ⟨h1, h2⟩
    obtain ⟨new, -, hc, hm, -⟩ := t.new
    have hmc := mc_of_asg h1 h2
    have := hm _ hmc fun c hcm => .of_sat (hc.sat hmc c hcm)
    refine ⟨fun i hi => ?_, fun l hl => this.root l hl.1 hl.2⟩
    obtain ⟨y, hy, hn⟩ := this.conf i hi
    exact ⟨y, hy, by simpa using hn⟩

theorem Refuted.no_model {db : Cdb} {s : Stk} {db' : Cdb} (h : Refuted db s db') (b : Asg) : ¬ IsModel db s b := by
  intro hb
  obtain ⟨h1, h2⟩ := isModel_iff.1 hb
  obtain ⟨⟨new, -, hc, hm⟩, -⟩ := h
  have hmc := mc_of_asg h1 h2
  exact hm _ hmc fun c hcm => .of_sat (hc.sat hmc c hcm)

/-! ## C14 -/

theorem insertHeaps_length (s : Stk) (vs : List Nat) : (s.insertHeaps vs).heap.length ≤ s.heap.length + vs.length := by
  unfold insertHeaps
  simp only []
  generalize s.heap = h
  induction vs generalizing h with
  | nil => simp
  | cons v vs ih =>
    have := ih (h.insert v)
    have h2 : (h.insert v).length ≤ h.length + 1 := by
      by_cases hm : v ∈ h
      · rw [List.insert_of_mem hm]; omega
      · rw [List.insert_of_not_mem hm]; simp
    simp only [List.foldl_cons, List.length_cons]; omega

/-- As long as an undecided variable waits in the heap or in the saved trail, `select_var` finds one. -/
theorem selectVar_live {pick : List Nat → Nat} : ∀ {n : Nat} {s : Stk}, s.heap.length + s.saved.length < n → ∀ {v : Nat},
    s.assign v = none → s.elim v = false → (v ∈ s.heap ∨ v ∈ s.saved.map Lit.var) → ∃ w, selectVar pick n s = some w
  | 0, s, h, _, _, _, _ => by omega
  | n + 1, s, h, v, ha, he, hm => by
    unfold selectVar heapRoot
    simp only []
    have h0 : v ∈ (if s.heap = [] then s.clearSaved else s).heap ∧ (if s.heap = [] then s.clearSaved else s).assign v = none ∧
        (if s.heap = [] then s.clearSaved else s).elim v = false ∧
        (if s.heap = [] then s.clearSaved else s).heap.length + (if s.heap = [] then s.clearSaved else s).saved.length < n + 1 ∨
        (s.heap ≠ [] ∧ v ∉ s.heap ∧ v ∈ s.saved.map Lit.var) := by
      by_cases hh : s.heap = []
      · left
        rw [if_pos hh]
        refine ⟨mem_insertHeaps.2 hm, ha, he, ?_⟩
        have := insertHeaps_length s (s.saved.map Lit.var)
        simp only [List.length_map] at this
        show (s.insertHeaps (s.saved.map Lit.var)).heap.length + 0 < n + 1
        omega
      · rw [if_neg hh]
        by_cases hv : v ∈ s.heap
        · exact .inl ⟨hv, ha, he, h⟩
        · exact .inr ⟨hh, hv, hm.resolve_left hv⟩
    have key : ∀ t : Stk, t.heap ≠ [] → t.heap.length + t.saved.length < n + 1 → t.assign v = none → t.elim v = false →
        (v ∈ t.heap ∨ v ∈ t.saved.map Lit.var) →
        ∃ w, (match (if t.heap = [] then none else some (choose pick t.heap, { t with heap := t.heap.filter (· ≠ choose pick t.heap) })) with
          | none => none
          | some (v, s1) => if s1.assign v = none ∧ s1.elim v = false then some (v, s1) else selectVar pick n s1) = some w := by
      intro t hne hlen hta hte htm
      rw [if_neg hne]
      simp only []
      split
      · exact ⟨_, rfl⟩
      · rename_i hc
        have hvc : v ≠ choose pick t.heap := by
          rintro rfl; exact hc ⟨hta, hte⟩
        refine selectVar_live (s := { t with heap := t.heap.filter (· ≠ choose pick t.heap) }) ?_ (v := v) hta hte ?_
        · have := List.length_filter_lt_length_iff_exists (p := fun x => decide (x ≠ choose pick t.heap)) (l := t.heap) |>.2
            ⟨choose pick t.heap, choose_mem hne, by simp⟩
          simp only []; omega
        · refine htm.imp (fun h => ?_) id
          simp only [List.mem_filter]; exact ⟨h, by simpa using hvc⟩
    rcases h0 with ⟨a, b, c, d⟩ | ⟨a, b, c⟩
    · exact key _ (List.ne_nil_of_mem a) d b c (.inl a)
    · rw [if_neg a]
      exact key s a h ha he (.inr c)

/-- The counter of undecided variables is zero exactly if there is none. -/
theorem unassigned_zero {db : Cdb} {s : Stk} (hi : Inv db s) (hd : Dom db s) (hc : Cnt s) :
    s.unassigned = 0 ↔ ¬ ∃ v, 1 ≤ v ∧ v ≤ s.numVars ∧ s.assign v = none ∧ s.elim v = false := by
  constructor
  · rintro h0 ⟨v, h1, h2, h3, h4⟩
    rcases all_assigned hi hd hc h0 v h1 h2 with h | h
    · exact h h3
    · rw [h4] at h; exact absurd h (by simp)
  · intro hno
    obtain ⟨A, E, a1, a2, a3, e1, e2, e3⟩ := hc
    have hnd : (A ++ s.trail.map Lit.var ++ E).Nodup := by
      refine List.nodup_append.2 ⟨List.nodup_append.2 ⟨a1, hi.nd, ?_⟩, e1, ?_⟩
      · rintro v hv w hw rfl; exact ((a3 v).1 hv).2 hw
      · rintro v hv w hw rfl
        have hne : s.assign v ≠ none := by
          rcases List.mem_append.1 hv with hv | hv
          · exact ((a3 v).1 hv).1
          · obtain ⟨l, hl, rfl⟩ := List.mem_map.1 hv; exact tr_assigned (hi.tv l hl)
        have := (hd.as v hne).2.2
        rw [((e3 v).1 hw).1] at this; exact absurd this (by simp)
    have hset : (A ++ s.trail.map Lit.var ++ E).toFinset = Finset.Icc 1 s.numVars := by
      ext v
      rw [List.mem_toFinset, Finset.mem_Icc]
      constructor
      · intro hv
        rcases List.mem_append.1 hv with hv | hv
        · have hne : s.assign v ≠ none := by
            rcases List.mem_append.1 hv with hv | hv
            · exact ((a3 v).1 hv).1
            · obtain ⟨l, hl, rfl⟩ := List.mem_map.1 hv; exact tr_assigned (hi.tv l hl)
          have := hd.as v hne; exact ⟨this.1, this.2.1⟩
        · exact ((e3 v).1 hv).2
      · rintro ⟨h1, h2⟩
        by_cases ha : s.assign v = none
        · have he : s.elim v = true := by
            cases h : s.elim v with
            | true => rfl
            | false => exact absurd ⟨v, h1, h2, ha, h⟩ hno
          exact List.mem_append.2 (.inr ((e3 v).2 ⟨he, h1, h2⟩))
        · refine List.mem_append.2 (.inl (List.mem_append.2 ?_))
          by_cases hm : v ∈ s.trail.map Lit.var
          · exact .inr hm
          · exact .inl ((a3 v).2 ⟨ha, hm⟩)
    have hlen := List.toFinset_card_of_nodup hnd
    rw [hset, Nat.card_Icc] at hlen
    simp only [List.length_append, List.length_map] at hlen
    unfold Stk.unassigned
    omega

/-- **C14**, choosing: in every state of the search in which some variable is neither assigned nor eliminated, `select_var`
returns such a variable, whatever member of the heap is the most active one. -/
theorem C14_choosing_succeeds {cfg : Cfg} {F : Form} {x : Sol} (h : Head cfg F x) (pick : List Nat → Nat)
    (hex : ∃ v, 1 ≤ v ∧ v ≤ x.s.numVars ∧ x.s.assign v = none ∧ x.s.elim v = false) :
    ∃ v s', selectVar pick x.s.selectFuel x.s = some (v, s') ∧ 1 ≤ v ∧ v ≤ x.s.numVars ∧ x.s.assign v = none ∧ x.s.elim v = false ∧
      s'.assign = x.s.assign := by
  obtain ⟨F', -, h1⟩ := h.sok
  obtain ⟨v, a1, a2, a3, a4⟩ := hex
  obtain ⟨⟨w, s1⟩, e⟩ := selectVar_live (pick := pick) (n := x.s.selectFuel) (s := x.s) (by unfold selectFuel; omega) a3 a4 (h1.heap v ⟨a1, a2, a4⟩ a3)
  obtain ⟨s0, p0, t0, rfl, hm, b1, b2, b3, -⟩ := selectVar_spec (k := true) (r := true) h1.pinv e
  have hd := (t0.dom h1.dom).hp w (.inl hm)
  rw [t0.sp.numVars] at hd
  exact ⟨w, _, e, hd.1, hd.2, by rw [← b3]; exact b1, by rw [← t0.sp.elim]; exact b2, b3⟩

/-- **C14**, the main loop: the test `NumUnassignedVar > 0` is right about the existence of an undecided variable, and if all
assignments are propagated, the decision made next is on such a variable, which gets the chosen value on a new level; nothing
else is assigned. -/
theorem C14_decisions {cfg : Cfg} {F : Form} {x : Sol} (h : Head cfg F x) :
    (x.s.unassigned ≠ 0 ↔ ∃ v, 1 ≤ v ∧ v ≤ x.s.numVars ∧ x.s.assign v = none ∧ x.s.elim v = false) ∧
    (x.s.running = true → x.s.remains = false → ∀ o : Orc, ∃ v s', decideStep o x.s = some s' ∧
      1 ≤ v ∧ v ≤ x.s.numVars ∧ x.s.assign v = none ∧ x.s.elim v = false ∧ Decision s' ⟨v, o.phase v⟩ ∧ s'.level v = s'.dl ∧
      s'.dl = x.s.dl + 1 ∧ s'.trail = x.s.trail ++ [⟨v, o.phase v⟩] ∧ ∀ w, w ≠ v → s'.assign w = x.s.assign w) ∧
    (x.s.remains = true → ∀ o : Orc, decideStep o x.s = some x.s) := by
  obtain ⟨F', -, h1⟩ := h.sok
  obtain ⟨recs, g, -⟩ := h1.glob
  have hz := unassigned_zero h1.pinv.inv h1.dom g.cnt
  have hz' : x.s.unassigned ≠ 0 ↔ ∃ v, 1 ≤ v ∧ v ≤ x.s.numVars ∧ x.s.assign v = none ∧ x.s.elim v = false := by
    rw [Ne, hz, not_not]
  refine ⟨hz', fun hr hrem o => ?_, fun hrem o => by simp [decideStep, hrem]⟩
  have hu : x.s.unassigned ≠ 0 := by
    unfold Stk.running at hr; rw [hrem] at hr; simpa using hr
  obtain ⟨v, s1, e, a1, a2, a3, a4, a5⟩ := C14_choosing_succeeds h o.pick (hz'.1 hu)
  obtain ⟨s0, p0, t0, rfl, hm, b1, b2, b3, b4, b5, b6⟩ := selectVar_spec (k := true) (r := true) h1.pinv e
  refine ⟨v, _, by simp only [decideStep, hrem, e]; rfl, a1, a2, a3, a4, ⟨?_, ?_, ?_⟩, ?_, ?_, ?_, ?_⟩
  · simp [Holds, assignDecision]
  · simp [assignDecision, Stk.dl]
  · simp [assignDecision, Stk.dl]
  · simp [assignDecision, Stk.dl]
  · simp [assignDecision, Stk.dl, b5]
  · simp [assignDecision, b4]
  · intro w hw
    simp [assignDecision, upd_of_ne _ _ hw, b3]


/-- Two variables decided, two implied, and a fifth one still open. -/
example : ∃ x, Head {} (exDeep.map clsOf) x ∧ x.s.running = true ∧ x.s.remains = false ∧ x.s.trail.length = 4 ∧
    ∃ v, 1 ≤ v ∧ v ≤ x.s.numVars ∧ x.s.assign v = none ∧ x.s.elim v = false := by
  have h : (headOf {} plainPre (List.replicate 3 plainOrc) (exSolver 11 exDeep)).any (fun y =>
      decide (y.s.remains = false ∧ y.s.trail.length = 4 ∧ 5 ≤ y.s.numVars ∧ y.s.assign 5 = none ∧ y.s.elim 5 = false)) = true := by decide +kernel
  obtain ⟨y, hy, h⟩ := (Option.any_eq_true _ _).1 h
  simp only [decide_eq_true_eq] at h
  have hh := Head.of exDeep_built hy
  exact ⟨y, hh.1, hh.2, h.1, h.2.1, 5, by decide, h.2.2.1, h.2.2.2⟩

/-! ## C15 -/

/-- The resolvent of `p` and `n` on `v` is a tautology, a fact, or a held clause. -/
def ResolventKept (v : Nat) (p n : Cls) (db : Cdb) (s : Stk) : Prop :=
  (∃ l ∈ p, l.var ≠ v ∧ l.neg ∈ n) ∨
  (∃ l, (∀ x, (x ∈ p ∨ x ∈ n) ∧ x.var ≠ v ↔ x = l) ∧ Fact s l) ∨
  ∃ c, Held db c ∧ ∀ x, x ∈ c ↔ (x ∈ p ∨ x ∈ n) ∧ x.var ≠ v

/-- What elimination of `v` leads to. -/
structure Eliminated (v : Nat) (db : Cdb) (s : Stk) (db' : Cdb) (s' : Stk) : Prop where
  /-- no clause has the variable any more -/
  gone : ∀ c, Held db' c → ∀ l ∈ c, l.var ≠ v
  /-- the other clauses are all there -/
  kept : ∀ c, Held db c → (∀ l ∈ c, l.var ≠ v) → Held db' c
  /-- and all resolvents -/
  resolvents : ∀ p n, Held db p → Held db n → ⟨v, true⟩ ∈ p → ⟨v, false⟩ ∈ n → ResolventKept v p n db' s'
  /-- nothing else is there -/
  only : ∀ c, Held db' c → Held db c ∨ ∃ p n, Held db p ∧ Held db n ∧ ⟨v, true⟩ ∈ p ∧ ⟨v, false⟩ ∈ n ∧
    ∀ x, x ∈ c ↔ (x ∈ p ∨ x ∈ n) ∧ x.var ≠ v
  /-- a model before is a model after -/
  sound : ∀ b, IsModel db s b → IsModel db' s' b
  /-- a model after is one before, for some value of the variable -/
  extend : ∀ b, IsModel db' s' b → ∃ y, IsModel db s (upd b v y)
  flag : s'.elim v = true ∧ ∀ w, w ≠ v → s'.elim w = s.elim w

/-- **C15.** Eliminating a variable that is neither assigned nor eliminated nor given up replaces its clauses by their
non-tautological resolvents; the models of the two states correspond. If it reports a contradiction then there is no model. -/
theorem C15_elimination {cfg : Cfg} {F : Form} {d : DS} {e : El} (h : Inner cfg F d (some e)) {v : Nat} (h1 : 1 ≤ v) (h2 : v ≤ d.2.numVars)
    (hn : d.2.assign v = none) (hel : d.2.elim v = false) (hab : e.aborted v = false) :
    match eliminateVar cfg.evo v d e with
    | .ok y => Eliminated v d.1 d.2 y.1.1 y.1.2
    | .unsat _ _ => ¬ ∃ b, IsModel d.1 d.2 b
    | _ => True := by
  obtain ⟨F', -, recs, s0, recs', g, -, hl, ho, -⟩ := h.ok
  obtain ⟨db, s⟩ := d
  simp only [] at h1 h2 hn hel hab g hl ho ⊢
  have hshape := eliminateVar_shape (evo := cfg.evo) g.rinv g.dom hl ho hn hab
  cases hr : eliminateVar cfg.evo v (db, s) e with
  | unsat db' s' =>
    rw [hr] at hshape
    rintro ⟨b, hb⟩
    exact Refuted.no_model hshape b hb
  | err => trivial
  | panic => trivial
  | fuel => trivial
  | ok w =>
    rw [hr] at hshape
    obtain ⟨pos, neg, u, z, ⟨hp, hng, t, ⟨e0, hk⟩, hlits, hd, hgone, hkeep, hsub, hres1⟩, rfl⟩ := hshape
    have g1 := g.step t
    have hvun : u.1.2.assign v = none := hk.un
    obtain ⟨f1, f2, f3, f4, f5, f6, f7, f8, f9, f10⟩ := makeEliminated_fields g1.rinv.inv hvun
    have hstk : z.1.2 = u.1.2 := hd.stk
    have hroot : ∀ l, Root (z.1.2.makeEliminated v) l ↔ Root u.1.2 l := fun l => by rw [hstk]; unfold Root tr; rw [f1, f2]
    have hrv : ∀ l, Root u.1.2 l → l.var ≠ v := by rintro l hl rfl; exact tr_assigned hl.1 hvun
    have keepU : ∀ i, (db.clause i).lits ≠ [] → (u.1.1.clause i).lits = (db.clause i).lits := fun i hi => (hk.keep i hi).1
    -- a clause of the state after resolving without the variable
    have heldZ : ∀ i, (u.1.1.clause i).lits ≠ [] → (∀ l ∈ (u.1.1.clause i).lits, l.var ≠ v) → Held z.1.1 (u.1.1.clause i).lits := by
      intro i hne hv
      exact ⟨hne, i, by rw [hkeep i hv]⟩
    have satZ : ∀ b, IsModel z.1.1 (z.1.2.makeEliminated v) b → SatP z.1.1 b ∧ SatU (z.1.2.makeEliminated v) b := fun b hb =>
      ⟨(isModel_iff.1 hb).1.satP, (isModel_iff.1 hb).2⟩
    refine ⟨?_, ?_, ?_, ?_, ?_, ?_, ?_⟩
    · rintro c ⟨hc, i, rfl⟩ l hl; exact hgone i l hl
    · rintro c ⟨hc, i, rfl⟩ hv
      have := heldZ i (by rw [keepU i hc]; exact hc) (by rw [keepU i hc]; exact hv)
      rw [keepU i hc] at this; exact this
    · rintro p n ⟨hpn, i, rfl⟩ ⟨hnn, j, rfl⟩ hpm hnm
      rcases hres1 i j (by rw [keepU i hpn]; exact hpm) (by rw [keepU j hnn]; exact hnm) with ⟨l, a1, a2, a3⟩ | ⟨l, a1, a2⟩ | ⟨k, a1, a2, a3⟩
      · rw [keepU i hpn] at a1; rw [keepU j hnn] at a3
        exact .inl ⟨l, a1, a2, a3⟩
      · rw [keepU i hpn, keepU j hnn] at a1
        exact .inr (.inl ⟨l, a1, (hroot l).2 a2⟩)
      · rw [keepU i hpn, keepU j hnn] at a2
        exact .inr (.inr ⟨_, heldZ k a1 fun l hl => ((a2 l).1 hl).2, a2⟩)
    · rintro c ⟨hc, i, rfl⟩
      have e1 : z.1.1.clause i = u.1.1.clause i := hsub i hc
      have e2 : (z.1.1.clause i).lits = (u.1.1.clause i).lits := by rw [e1]
      have hne : (u.1.1.clause i).lits ≠ [] := by rw [← e2]; exact hc
      rcases hk.src i hne with h | ⟨p, n, hp1, hn1, hx⟩
      · exact .inl ⟨hc, i, (h.symm.trans e2.symm)⟩
      · refine .inr ⟨_, _, ⟨List.ne_nil_of_mem hp1, p, rfl⟩, ⟨List.ne_nil_of_mem hn1, n, rfl⟩, hp1, hn1, fun x => ?_⟩
        show x ∈ (z.1.1.clause i).lits ↔ _
        rw [e2]; exact hx x
    · intro b hb
      have hu := isModel_iff.1 ((g.models t b).2 hb)
      refine isModel_iff.2 ⟨fun i hne => ?_, fun l hl => hu.2 l ((hroot l).1 hl)⟩
      have e1 := hsub i hne
      have hne : (z.1.1.clause i).lits ≠ [] := hne
      show Cls.sat b (z.1.1.clause i).lits
      rw [e1] at hne ⊢; exact hu.1 i hne
    · intro b hb
      obtain ⟨hb1, hb2⟩ := satZ b hb
      obtain ⟨y, hy1, hy2⟩ := elim_value hrv hroot hkeep hres1 b hb1 hb2
      exact ⟨y, (g.models t _).1 (isModel_iff.2 ⟨g1.imp _ hy1 hy2, hy2⟩)⟩
    · have he : u.1.2.elim = s.elim := t.sp.elim
      show (z.1.2.makeEliminated v).elim v = true ∧ ∀ w, w ≠ v → (z.1.2.makeEliminated v).elim w = s.elim w
      rw [hstk, f9]
      exact ⟨by simp, fun w hw => by rw [upd_of_ne _ _ hw, he]⟩

/-- **C15**, satisfiability: the formula after is satisfiable exactly if the one before was. -/
theorem C15_equisatisfiable {cfg : Cfg} {F : Form} {d : DS} {e : El} (h : Inner cfg F d (some e)) {v : Nat} (h1 : 1 ≤ v) (h2 : v ≤ d.2.numVars)
    (hn : d.2.assign v = none) (hel : d.2.elim v = false) (hab : e.aborted v = false) {y : DS × El} (he : eliminateVar cfg.evo v d e = .ok y) :
    (∃ b, IsModel y.1.1 y.1.2 b) ↔ ∃ b, IsModel d.1 d.2 b := by
  have := C15_elimination h h1 h2 hn hel hab
  rw [he] at this
  exact ⟨fun ⟨b, hb⟩ => let ⟨x, hx⟩ := this.extend b hb; ⟨_, hx⟩, fun ⟨b, hb⟩ => ⟨b, this.sound b hb⟩⟩

/-- The eliminator at work on a fresh solver, after the commands `cs`. -/
def innerOf (cs : List ECmd) (x : Sol) : Option (DS × El) :=
  match (prepare true ({} : Cfg).evo x.cnf (x.db, x.s)).bind (runCmds ({} : Cfg).evo cs) with
  | .ok y => some y
  | _ => none

theorem Inner.cmds {cfg : Cfg} {F : Form} : ∀ {cs : List ECmd} {y z : DS × El}, Inner cfg F y.1 (some y.2) → runCmds cfg.evo cs y = .ok z →
    Inner cfg F z.1 (some z.2)
  | [], y, z, h, e => by simp only [runCmds, Res.ok.injEq] at e; subst e; exact h
  | c :: cs, y, z, h, e => by
    unfold runCmds at e
    cases hr : runCmd cfg.evo y c with
    | ok w => rw [hr] at e; exact Inner.cmds (y := w) (.command h hr) e
    | _ => rw [hr] at e; simp [Res.bind] at e

theorem Inner.of {F : Form} {x : Sol} {cs : List ECmd} {y : DS × El} (h : Built F x) (e : innerOf cs x = some y) : Inner {} F y.1 (some y.2) := by
  unfold innerOf at e
  split at e
  · rename_i w hw
    simp only [Option.some.injEq] at e; subst e
    cases hp : Splr.prepare true ({} : Cfg).evo x.cnf (x.db, x.s) with
    | ok u => rw [hp] at hw; exact Inner.cmds (Inner.prepare (.built h) hp) hw
    | _ => rw [hp] at hw; simp [Res.bind] at hw
  · simp at e

theorem exSat_built : Built (exSat.map clsOf) (exSolver 4 exSat) := exBuilt (by decide +kernel)

/-- Variable 2 of `exSat` is eliminated (one resolvent is a tautology), then variable 1. -/
example : ∃ d e, Inner {} (exSat.map clsOf) d (some e) ∧ d.2.elim 2 = true ∧ 1 ≤ d.2.numVars ∧ d.2.assign 1 = none ∧ d.2.elim 1 = false ∧
    e.aborted 1 = false ∧ ∃ y, eliminateVar ({} : Cfg).evo 1 d e = .ok y := by
  have h : (innerOf [.elimVar 2] (exSolver 4 exSat)).any (fun y => decide (y.1.2.elim 2 = true ∧ 1 ≤ y.1.2.numVars ∧ y.1.2.assign 1 = none ∧
      y.1.2.elim 1 = false ∧ y.2.aborted 1 = false) && (match eliminateVar ({} : Cfg).evo 1 y.1 y.2 with | .ok _ => true | _ => false)) = true := by
    decide +kernel
  obtain ⟨y, hy, h⟩ := (Option.any_eq_true _ _).1 h
  simp only [Bool.and_eq_true, decide_eq_true_eq] at h
  obtain ⟨⟨a, b, c, d, e⟩, h⟩ := h
  refine ⟨y.1, y.2, Inner.of exSat_built hy, a, b, c, d, e, ?_⟩
  revert h
  cases eliminateVar ({} : Cfg).evo 1 y.1 y.2 with
  | ok z => exact fun _ => ⟨z, rfl⟩
  | _ => simp

/-! ## C16 -/

theorem Head.rng {cfg : Cfg} {F : Form} {x : Sol} (h : Head cfg F x) : Rng F x.s.numVars := by
  induction h with
  | @start x y p h e =>
    obtain ⟨F', -, h1⟩ := preprocess_any h.bok.1 e
    rw [h1.nvar]; exact h.bok.2
  | @step x y o h hr e ih =>
    obtain ⟨F', -, h1⟩ := h.sok
    have := searchStep_spec (cfg := cfg) (o := o) h1
    rw [e] at this
    have h2 : SOK F' x.s.numVars y := this
    rw [h2.nvar]; exact ih

/-- **C16.** In every state of the search, `extend_model` turns any model `b` of the clauses and facts that are left, given as a
partial assignment `m` over the variables that are not eliminated, into an assignment of all variables that satisfies all the
clauses the solver was given, without changing the variables that are not eliminated. -/
theorem C16_models_extend {cfg : Cfg} {F : Form} {x : Sol} (h : Head cfg F x) (b : Asg) (hb : IsModel x.db x.s b) (m : Nat → Option Bool)
    (hm : ∀ v, m v = none ∨ m v = some (b v)) (hm' : ∀ v, 1 ≤ v → v ≤ x.s.numVars → x.s.elim v = false → m v = some (b v)) :
    ∃ m', extendModel x.store m = some m' ∧ (∀ v, 1 ≤ v → v ≤ x.s.numVars → m' v ≠ none) ∧
      (∀ v, 1 ≤ v → v ≤ x.s.numVars → x.s.elim v = false → m' v = some (b v)) ∧ Form.sat (fun v => (m' v).getD false) F := by
  obtain ⟨F', hF, h1⟩ := h.sok
  obtain ⟨recs, g, hs⟩ := h1.glob
  obtain ⟨m', e, c1, c2, c3⟩ := extendLoop_spec recs (encode recs).length m b (Nat.le_refl _) hm (fun pre r post e y hy => by
    obtain ⟨o1, o2, o3⟩ := g.st.ord pre r post e y hy
    rcases o3 with o3 | o3
    · left; rw [hm' _ o1 o2 o3]; simp
    · exact .inr o3)
  have htot : ∀ v, 1 ≤ v → v ≤ x.s.numVars → m' v ≠ none := by
    intro v a1 a2
    cases he : x.s.elim v with
    | false => exact c2 v (by rw [hm' v a1 a2 he]; simp)
    | true =>
      obtain ⟨r, hr, hr2, rfl⟩ := g.st.cover v he
      exact c3 r hr hr2
  refine ⟨m', by unfold extendModel; rw [hs]; exact e, htot, fun v a1 a2 he => ?_, ?_⟩
  · rw [(c1 v).resolve_left (htot v a1 a2), extR_other fun r hr er => ?_]
    have := g.st.tgt r hr; rw [er, he] at this; exact absurd this (by simp)
  · have hsat := g.ext b (isModel_iff.1 hb).1.satP (isModel_iff.1 hb).2
    have hsF : Form.sat (extR recs b) F := fun c hc => hsat c (hF.1 c hc)
    refine Form.sat_congr h.rng (fun v a1 a2 => ?_) hsF
    rw [(c1 v).resolve_left (htot v a1 a2)]; rfl

theorem Cdb.WF.lt {db : Cdb} (h : db.WF) {i : Nat} (hi : (db.clause i).lits ≠ []) : i < db.len := by
  have := mem_ids h hi
  unfold Cdb.ids at this
  exact List.mem_range.1 (List.mem_of_mem_drop this)

/-- A finite check of `IsModel`. -/
theorem isModel_check {db : Cdb} {s : Stk} (hi : RInv db s) (hd : Dom db s) {b : Asg}
    (hc : ∀ i ∈ List.range db.len, (db.clause i).lits = [] ∨ Cls.sat b (db.clause i).lits)
    (ha : ∀ v ∈ List.range (s.numVars + 1), s.assign v = none ∨ s.assign v = some (b v)) : IsModel db s b := by
  refine isModel_iff.2 ⟨fun i hne => (hc i (List.mem_range.2 (hi.wf.lt hne))).resolve_left hne, fun l hl => ?_⟩
  have h1 := hd.as l.var (tr_assigned hl.1)
  have h2 := (ha l.var (List.mem_range.2 (by have := h1.2.1; omega))).resolve_left (tr_assigned hl.1)
  have h3 : s.assign l.var = some l.pos := hl.1
  rw [h2] at h3
  simpa [Lit.sat] using h3

theorem Head.check {cfg : Cfg} {F : Form} {x : Sol} (h : Head cfg F x) {b : Asg}
    (hc : ∀ i ∈ List.range x.db.len, (x.db.clause i).lits = [] ∨ Cls.sat b (x.db.clause i).lits)
    (ha : ∀ v ∈ List.range (x.s.numVars + 1), x.s.assign v = none ∨ x.s.assign v = some (b v)) : IsModel x.db x.s b := by
  obtain ⟨F', -, h1⟩ := h.sok
  exact isModel_check h1.pinv.rinv h1.dom hc ha

/-- Variable 2 of `exSat` is eliminated; a model of the rest, in which the value of variable 2 is wrong (`[-1, -2]`, and 1 is true). -/
example : ∃ x, Head {} (exSat.map clsOf) x ∧ x.s.elim 2 = true ∧ IsModel x.db x.s (fun _ => true) ∧ ¬ Form.sat (fun _ => true) (exSat.map clsOf) := by
  have h : (headOf {} elimPre [] (exSolver 4 exSat)).any (fun y => decide (y.s.elim 2 = true ∧
      (∀ i ∈ List.range y.db.len, (y.db.clause i).lits = [] ∨ ∃ l ∈ (y.db.clause i).lits, l.pos = true) ∧
      ∀ v ∈ List.range (y.s.numVars + 1), y.s.assign v = none ∨ y.s.assign v = some true)) = true := by decide +kernel
  obtain ⟨y, hy, h⟩ := (Option.any_eq_true _ _).1 h
  simp only [decide_eq_true_eq] at h
  have hh := (Head.of exSat_built hy).1
  refine ⟨y, hh, h.1, hh.check (fun i hi => (h.2.1 i hi).imp id fun ⟨l, hl, hp⟩ => ⟨l, hl, by simp [Lit.sat, hp]⟩) h.2.2, ?_⟩
  intro hs
  obtain ⟨l, hl, hp⟩ := hs (clsOf [-1, -2]) (by simp [exSat])
  have : l.pos = false := by
    have : ∀ m ∈ clsOf [-1, -2], m.pos = false := by decide +kernel
    exact this l hl
  simp [Lit.sat, this] at hp

/-! ## C17 -/

theorem trySubsume_shape {x : DS} {e : El} {cid did : Nat} (hw : x.1.WF) (hd : (x.1.clause did).lits ≠ []) :
    ∃ y, trySubsume x e cid did = .ok y ∧ y.1.2 = x.2 ∧ ((∀ i, (y.1.1.clause i).lits = (x.1.clause i).lits) ∨
      ((∀ l ∈ (x.1.clause cid).lits, l ∈ (x.1.clause did).lits) ∧ (y.1.1.clause did).lits = [] ∧
        ∀ i, i ≠ did → (y.1.1.clause i).lits = (x.1.clause i).lits)) := by
  unfold trySubsume
  split
  swap
  · exact ⟨_, rfl, rfl, .inl fun _ => rfl⟩
  rename_i hs
  have hs : ∀ l ∈ (x.1.clause cid).lits, l ∈ (x.1.clause did).lits := by simpa [subsumes] using hs
  simp only []
  set db1 := if (x.1.clause did).learnt = true then x.1 else x.1.setC cid { x.1.clause cid with learnt := false } with hdb1
  have hf : Cdb.Flags x.1 db1 := by
    rw [hdb1]; split
    · exact .refl _
    · exact flags_setC rfl (by simp) rfl
  obtain ⟨y, hy, hdr, -⟩ := dropClause_spec (x := (db1, x.2)) (e := e) (cid := did) (hf.wf hw) (by
    show (db1.clause did).lits ≠ []; rw [hf.lits]; exact hd)
  refine ⟨y, hy, hdr.stk, .inr ⟨hs, hdr.gone, fun i hi => ?_⟩⟩
  rw [hdr.keep i hi]; exact hf.lits i

/-- **C17**, subsumption: trying to subsume one clause by another never fails; it removes at most the one clause, only if
all literals of the other (still held) clause are in it; no literal and no assignment is changed; the models stay the same. -/
theorem C17_subsumption {cfg : Cfg} {F : Form} {d : DS} {e : El} (h : Inner cfg F d (some e)) (cid did : Nat) :
    ∃ y, runCmd cfg.evo (d, e) (.subsume cid did) = .ok y ∧ y.1.2 = d.2 ∧ (∀ b, IsModel y.1.1 y.1.2 b ↔ IsModel d.1 d.2 b) ∧
      ((∀ i, (y.1.1.clause i).lits = (d.1.clause i).lits) ∨
        ((y.1.1.clause did).lits = [] ∧ (∀ i, i ≠ did → (y.1.1.clause i).lits = (d.1.clause i).lits) ∧ Held y.1.1 (y.1.1.clause cid).lits ∧
          ∀ l ∈ (y.1.1.clause cid).lits, l ∈ (d.1.clause did).lits)) := by
  obtain ⟨F', -, recs, s0, recs', g, -, hl, ho, -⟩ := h.ok
  unfold runCmd
  simp only []
  split
  · exact ⟨_, rfl, rfl, fun _ => .rfl, .inl fun _ => rfl⟩
  · rename_i hc
    simp only [not_or, Cl.dead, List.isEmpty_iff] at hc
    obtain ⟨c1, c2, c3⟩ := hc
    obtain ⟨y, hy, y1, y2⟩ := trySubsume_shape (e := e) g.rinv.wf c3
    have hg := rg_trySubsume (r := true) g.rinv hl ho c1 c2 c3
    simp only [] at hg
    rw [hy] at hg
    refine ⟨y, hy, y1, g.models hg.1, ?_⟩
    rcases y2 with y2 | ⟨z1, z2, z3⟩
    · exact .inl y2
    · refine .inr ⟨z2, z3, ⟨by rw [z3 cid c1]; exact c2, cid, rfl⟩, ?_⟩
      rw [z3 cid c1]; exact z1

/-- What removing the false literal `p` from clause `cid` may lead to. -/
theorem strengthen_shape {x : DS} {e : El} {cid : Nat} {p : Lit} (hi : RInv x.1 x.2) (hl : x.2.lim = []) (hp : p ∈ (x.1.clause cid).lits) :
    (∃ y, strengthen x e cid p = .ok y ∧ (∀ i, i ≠ cid → y.1.1.clause i = x.1.clause i) ∧
      ((y.1.1.clause cid).lits = (x.1.clause cid).lits.filter (· ≠ p) ∨
       (y.1.1.clause cid).lits = [] ∧ (∃ j, j ≠ cid ∧ (x.1.clause j).lits ≠ [] ∧ ∀ z, z ∈ (x.1.clause j).lits ↔ z ∈ (x.1.clause cid).lits ∧ z ≠ p) ∨
       (y.1.1.clause cid).lits = [] ∧ ∃ a, (∀ z, z ∈ (x.1.clause cid).lits ∧ z ≠ p ↔ z = a) ∧ y.1.2.tr a)) ∨
    ∃ db s, strengthen x e cid p = .unsat db s := by
  obtain ⟨db, s⟩ := x
  simp only [] at hi hl hp ⊢
  obtain ⟨db1, rf, he, w, out, hk, hlr, -⟩ := Cdb.transformByElimination_spec hi.wf hp
  unfold strengthen
  simp only []
  rw [he]
  have hnd := hi.wf.nd cid
  have hne : (db.clause cid).lits ≠ [] := List.ne_nil_of_mem hp
  cases out with
  | clause h h' hc => exact .inl ⟨_, rfl, hk, .inl h'⟩
  | registered reg a b h hr h' h3 hc =>
    simp only []
    have hreg : reg ≠ cid := by
      rintro rfl; rcases hr with e | e <;> rw [e] at h3 <;> simp at h3
    obtain ⟨y, hy, hyd, -⟩ := dropClause_spec (x := (db1, s)) (e := e) w (cid := cid) (by show (db1.clause cid).lits ≠ []; rw [h']; exact hne)
    refine .inl ⟨y, hy, fun i hii => by rw [hyd.keep i hii]; exact hk i hii, .inr (.inl ⟨hyd.gone, reg, hreg, ?_, fun z => ?_⟩)⟩
    · rcases hr with e | e <;> rw [e] <;> simp
    · have : z ∈ (db.clause cid).lits ∧ z ≠ p ↔ z ∈ [a, b] := by rw [← h]; simp
      rw [this]; rcases hr with e | e <;> rw [e] <;> simp; tauto
  | unit a h h' hc =>
    simp only []
    have hw1 : (db1.log (.add [a])).WF := Cdb.wf_lits w (fun _ => ⟨rfl, rfl⟩) rfl rfl rfl rfl rfl
    obtain ⟨y, hy, hyd, hyr⟩ := dropClause_spec (x := (db1.log (.add [a]), s)) (e := e) hw1 (cid := cid) (by
      show (db1.clause cid).lits ≠ []; rw [h']; simp)
    rw [hy]
    simp only [Res.bind]
    have hs1 : y.1.2 = s := hyd.stk
    have hap : a ≠ p := by
      rintro rfl; rcases h with e | e <;> rw [e] at hnd <;> simp at hnd
    have hone : ∀ z, z ∈ (db.clause cid).lits ∧ z ≠ p ↔ z = a := by
      intro z; rcases h with e | e <;> rw [e] <;> simp <;> constructor <;> first | tauto | (rintro rfl; exact ⟨by simp, hap⟩)
    have hkk : ∀ i, i ≠ cid → y.1.1.clause i = db.clause i := fun i hii => by rw [hyd.keep i hii]; exact hk i hii
    rw [hs1]
    rcases tr_cases s a with ha | ha | ha
    · rw [val_true.2 ha]
      exact .inl ⟨y, rfl, hkk, .inr (.inr ⟨hyd.gone, a, hone, by rw [hs1]; exact ha⟩)⟩
    · rw [val_false.2 ha]; exact .inr ⟨_, _, rfl⟩
    · rw [val_none.2 ha]
      have hc0 : s.cancelUntil noLow 0 = s := cancelUntil_noop (by unfold Stk.dl; rw [hl]; simp)
      obtain ⟨i1, i2, i3⟩ := hi.inv.assignRoot noLow a
      rw [hc0] at i3
      unfold Stk.assignRootRes
      generalize s.assignRoot noLow a = g at i3 ⊢
      obtain ⟨s1, b⟩ := g
      simp only [] at i3
      rcases i3 with ⟨hn, hb, ea, et⟩ | ⟨ht, hb, ea, et⟩ | ⟨ht, hb, ea, et⟩
      · subst hb
        exact .inl ⟨_, rfl, hkk, .inr (.inr ⟨hyd.gone, a, hone, by show s1.tr a; unfold tr; rw [ea]; simp⟩)⟩
      · exact absurd ha (tr_assigned ht)
      · have := tr_assigned ht; rw [Lit.neg_var] at this; exact absurd ha this

/-- **C17**, strengthening by a literal of the trail (at the root level, so a fact): the models stay the same, facts stay facts;
at most the one clause changes; it changes only by losing the negation of the literal: what is left of it is held, by itself
or as another clause, or is a fact. If a contradiction is reported, there is no model. It never panics. -/
theorem C17_strengthening {cfg : Cfg} {F : Form} {d : DS} {e : El} (h : Inner cfg F d (some e)) (l : Lit) (did : Nat) :
    (∃ y, runCmd cfg.evo (d, e) (.lifted l did) = .ok y ∧ (∀ b, IsModel y.1.1 y.1.2 b ↔ IsModel d.1 d.2 b) ∧ (∀ x, Fact d.2 x → Fact y.1.2 x) ∧
      (∀ i, i ≠ did → (y.1.1.clause i).lits = (d.1.clause i).lits) ∧
      ((y.1.1.clause did).lits = (d.1.clause did).lits ∨
        Fact d.2 l ∧ l.neg ∈ (d.1.clause did).lits ∧
          (((y.1.1.clause did).lits = (d.1.clause did).lits.filter (· ≠ l.neg)) ∨
            (y.1.1.clause did).lits = [] ∧ (∃ c, Held y.1.1 c ∧ ∀ x, x ∈ c ↔ x ∈ (d.1.clause did).lits ∧ x ≠ l.neg) ∨
            (y.1.1.clause did).lits = [] ∧ ∃ a, (∀ x, x ∈ (d.1.clause did).lits ∧ x ≠ l.neg ↔ x = a) ∧ Fact y.1.2 a))) ∨
    (∃ db s, runCmd cfg.evo (d, e) (.lifted l did) = .unsat db s) ∧ ¬ ∃ b, IsModel d.1 d.2 b := by
  obtain ⟨F', -, recs, s0, recs', g, -, hl, ho, -⟩ := h.ok
  unfold runCmd
  simp only []
  split
  · exact .inl ⟨_, rfl, fun _ => .rfl, fun _ h => h, fun _ _ => rfl, .inl rfl⟩
  · rename_i hc
    simp only [not_or, not_not] at hc
    have hrg := rg_tryLifted (r := true) (did := did) g.rinv hl ho hc.1
    have ht := g.rinv.inv.tv l hc.1
    have hfl : Root d.2 l := ⟨ht, g.rinv.inv.level_root hl (tr_assigned ht)⟩
    unfold tryLifted at hrg ⊢
    split
    swap
    · exact .inl ⟨_, rfl, fun _ => .rfl, fun _ h => h, fun _ _ => rfl, .inl rfl⟩
    rename_i hm
    rw [if_pos hm] at hrg
    rcases strengthen_shape (e := e) g.rinv hl hm with ⟨y, hy, y1, y2⟩ | ⟨db, s, hy⟩
    · rw [hy] at hrg
      obtain ⟨t, hkp⟩ := hrg
      refine .inl ⟨y, hy, g.models t, fun x hx => t.root x hx, fun i hi => by rw [y1 i hi], .inr ⟨hfl, hm, ?_⟩⟩
      rcases y2 with y2 | ⟨a1, j, a2, a3, a4⟩ | ⟨a1, a, a2, a3⟩
      · exact .inl y2
      · exact .inr (.inl ⟨a1, _, ⟨a3, j, by rw [y1 j a2]⟩, a4⟩)
      · exact .inr (.inr ⟨a1, a, a2, a3, t.rinv.inv.level_root hkp.lim (tr_assigned a3)⟩)
    · rw [hy] at hrg
      exact .inr ⟨⟨db, s, hy⟩, fun ⟨b, hb⟩ => Refuted.no_model hrg b hb⟩

/-- A clause that another one subsumes, and a clause with a false literal. -/
def exSub : List (List Int) := [[1, 2, 3], [1, 2], [-1, -2, -3], [-5, 1, 2], [5, 3, 4], [5], [-3, -4]]

example : ∃ d e, Inner {} (exSub.map clsOf) d (some e) ∧ (∃ y, runCmd ({} : Cfg).evo (d, e) (.subsume 2 1) = .ok y ∧ (d.1.clause 1).lits.length = 3 ∧
    (y.1.1.clause 1).lits = []) ∧ ∃ y, runCmd ({} : Cfg).evo (d, e) (.lifted ⟨5, true⟩ 4) = .ok y ∧ (d.1.clause 4).lits.length = 3 ∧
    (y.1.1.clause 4).lits = [] ∧ (y.1.1.clause 2).lits.length = 2 := by
  have h : (innerOf [] (exSolver 5 exSub)).any (fun y =>
      (match runCmd ({} : Cfg).evo y (.subsume 2 1) with | .ok z => decide ((y.1.1.clause 1).lits.length = 3 ∧ (z.1.1.clause 1).lits = []) | _ => false) &&
      (match runCmd ({} : Cfg).evo y (.lifted ⟨5, true⟩ 4) with
        | .ok z => decide ((y.1.1.clause 4).lits.length = 3 ∧ (z.1.1.clause 4).lits = [] ∧ (z.1.1.clause 2).lits.length = 2) | _ => false)) = true := by
    decide +kernel
  obtain ⟨y, hy, h⟩ := (Option.any_eq_true _ _).1 h
  rw [Bool.and_eq_true] at h
  obtain ⟨h1, h2⟩ := h
  refine ⟨y.1, y.2, Inner.of (exBuilt (by decide +kernel)) hy, ?_, ?_⟩
  · split at h1
    · rename_i z hz; exact ⟨z, hz, by simpa using h1⟩
    · simp at h1
  · split at h2
    · rename_i z hz; exact ⟨z, hz, by simpa using h2⟩
    · simp at h2

/-! ## C18 -/

/-- **C18.** Vivification keeps the models of the clauses and facts, whatever clauses are chosen (the literals are tried in the
order in which the clause has them, and no order is assumed). Afterwards no decision is left: all assignments are facts; no
fact is lost, and every literal assigned is true in every model. If a contradiction is reported there is no model. -/
theorem C18_vivification {cfg : Cfg} {F : Form} {d : DS} (h : Inner cfg F d none) (targets : List Nat) :
    match vivify targets d with
    | .ok y => (∀ b, IsModel y.1 y.2 b ↔ IsModel d.1 d.2 b) ∧ y.2.dl = 0 ∧ (∀ l, Holds d.2 l → Fact y.2 l) ∧
        (∀ l, Holds y.2 l → Fact y.2 l) ∧ (∀ l, Holds y.2 l → ∀ b, IsModel d.1 d.2 b → l.sat b)
    | .unsat _ _ => ¬ ∃ b, IsModel d.1 d.2 b
    | _ => True := by
  obtain ⟨F', -, recs, g, hl, hu⟩ := h.ok
  have := rg_vivify (r := true) (targets := targets) g.rinv hl g.dom
  cases hv : vivify targets d with
  | ok y =>
    rw [hv] at this
    obtain ⟨t, hy⟩ := this
    simp only [id] at t
    have hm := g.models t
    have hf : ∀ l, Holds y.2 l → Fact y.2 l := fun l hl => ⟨hl, t.rinv.inv.level_root hy (tr_assigned hl)⟩
    refine ⟨hm, by unfold Stk.dl; rw [hy]; rfl, fun l h1 => t.root l ⟨h1, g.rinv.inv.level_root hl (tr_assigned h1)⟩, hf, fun l h1 b hb => ?_⟩
    exact ((hm b).2 hb).2 l (hf l h1)
  | unsat db s =>
    rw [hv] at this
    exact fun ⟨b, hb⟩ => Refuted.no_model this b hb
  | _ => trivial

/-- The first clause becomes `[2, 1]`. -/
def exViv : List (List Int) := [[1, 2, 3, 4], [1, 2, 5], [-3, -4, -1], [1, 2, -5], [-2, 3, 4]]

example : ∃ d, Inner {} (exViv.map clsOf) d none ∧ (d.1.clause 1).lits.length = 4 ∧ ∃ y, vivify [1, 4] d = .ok y ∧ (y.1.clause 1).lits = [] ∧
    (y.1.clause 6).lits = [⟨2, true⟩, ⟨1, true⟩] := by
  refine ⟨_, .built (x := exSolver 5 exViv) (exBuilt (by decide +kernel)), by decide +kernel, ?_⟩
  have h : (match vivify [1, 4] ((exSolver 5 exViv).db, (exSolver 5 exViv).s) with
    | .ok y => decide ((y.1.clause 1).lits = [] ∧ (y.1.clause 6).lits = [⟨2, true⟩, ⟨1, true⟩]) | _ => false) = true := by decide +kernel
  split at h
  · rename_i z hz; exact ⟨z, hz, by simpa using h⟩
  · simp at h

/-! ## C19 -/

/-- **C19**, in the search: when `reduce` is called (after a restart, at the root level) no clause is the reason of an assignment;
only clauses flagged LEARNT disappear and the models stay the same. -/
theorem C19_reduction_in_the_search {cfg : Cfg} {F : Form} {d : DS} (h : Inner cfg F d none) (victims : List Nat) :
    (∀ l c, Holds d.2 l → ¬ Names d.1 l (d.2.reason l.var) c) ∧
    ∃ db, d.1.reduceRes d.2 victims = .ok (db, d.2) ∧ (∀ b, IsModel db d.2 b ↔ IsModel d.1 d.2 b) ∧
      ∀ i, (db.clause i).lits = (d.1.clause i).lits ∨ (db.clause i).lits = [] ∧ (d.1.clause i).learnt = true ∧ 2 < (d.1.clause i).lits.length := by
  obtain ⟨F', -, recs, g, hl, hu⟩ := h.ok
  constructor
  · intro l c hh hn
    have := g.rinv.inv.root l.var (tr_assigned hh) (g.rinv.inv.level_root hl (tr_assigned hh))
    rw [this] at hn; exact hn
  · obtain ⟨db, e, -, -, hcl⟩ := Cdb.reduce_spec g.rinv.wf d.2.level victims
    refine ⟨db, by unfold Cdb.reduceRes; rw [e], ?_, fun i => ?_⟩
    · exact g.models (reduce_tr (r := true) g.rinv hl e).1
    · rcases hcl i with ⟨h1, -⟩ | ⟨-, h2, h3, h4⟩
      · exact .inl h1
      · refine .inr ⟨h4, h2, ?_⟩
        by_contra h5
        unfold lbdOf at h3
        have h6 := (List.dedup_sublist (((d.1.clause i).lits.map fun l => d.2.level l.var).filter (· ≠ 0))).length_le
        have h7 := List.length_filter_le (· ≠ 0) ((d.1.clause i).lits.map fun l => d.2.level l.var)
        simp only [List.length_map] at h7
        split at h3 <;> omega

/-- A clause of six literals is learnt and deleted again. -/
def exWide : List (List Int) := [[1, 2, 3, 4, 5, 6, 7], [-1, -2, -3, -4, -5, -6, 7], [-1, -2, -3, -4, -5, -6, -7]]

example : ∃ d, Inner {} (exWide.map clsOf) d none ∧ (d.1.clause 4).lits.length = 6 ∧ ∃ y, d.1.reduceRes d.2 [4, 1] = .ok y ∧ (y.1.clause 4).lits = [] := by
  have h : (headOf {} plainPre (List.replicate 6 plainOrc) (exSolver 7 exWide)).any (fun y => decide ((y.db.clause 4).lits.length = 6) &&
      (match y.db.reduceRes (y.s.restart noLow) [4, 1] with | .ok z => decide ((z.1.clause 4).lits = []) | _ => false)) = true := by decide +kernel
  obtain ⟨y, hy, h⟩ := (Option.any_eq_true _ _).1 h
  rw [Bool.and_eq_true, decide_eq_true_eq] at h
  obtain ⟨h1, h2⟩ := h
  refine ⟨_, .restart (Head.of (exBuilt (by decide +kernel)) hy).1 noLow, h1, ?_⟩
  split at h2
  · rename_i z hz; exact ⟨z, hz, by simpa using h2⟩
  · simp at h2

/-! ## C44 -/

/-- **C44.** `clear_asserted_literals` keeps the models; it empties the trail, but every literal that was true is a fact
afterwards, every assignment is a fact, and the counter of asserted variables is the number of assigned variables. If a
contradiction is reported there is no model. -/
theorem C44_root_level_cleanup {cfg : Cfg} {F : Form} {d : DS} (h : Inner cfg F d none) :
    match clearAsserted d with
    | .ok y => (∀ b, IsModel y.1 y.2 b ↔ IsModel d.1 d.2 b) ∧ y.2.trail = [] ∧ (∀ l, Holds d.2 l → Fact y.2 l) ∧
        (∀ l, Holds y.2 l → Fact y.2 l ∧ y.2.reason l.var = .decision 0) ∧
        ∃ A : List Nat, A.Nodup ∧ A.length = y.2.numAsserted ∧ ∀ v, v ∈ A ↔ y.2.assign v ≠ none
    | .unsat _ _ => ¬ ∃ b, IsModel d.1 d.2 b
    | _ => True := by
  obtain ⟨F', -, recs, g, hl, hu⟩ := h.ok
  have := rg_clearAsserted (r := true) g.rinv hl g.dom
  cases hv : clearAsserted d with
  | ok y =>
    rw [hv] at this
    obtain ⟨t, hy⟩ := this
    simp only [id] at t
    have htr : y.2.trail = [] := by
      unfold clearAsserted at hv
      cases hc : clearLoop (d.2.numVars + 2) d with
      | ok z => rw [hc] at hv; simp only [Res.bind, Res.ok.injEq] at hv; rw [← hv]; rfl
      | _ => rw [hc] at hv; simp [Res.bind] at hv
    refine ⟨g.models t, htr, fun l h1 => t.root l ⟨h1, g.rinv.inv.level_root hl (tr_assigned h1)⟩, fun l h1 => ?_, ?_⟩
    · have h2 := t.rinv.inv.level_root hy (tr_assigned h1)
      exact ⟨⟨h1, h2⟩, t.rinv.inv.root _ (tr_assigned h1) h2⟩
    · obtain ⟨A, E, a1, a2, a3, -⟩ := t.sp.cnt g.cnt
      refine ⟨A, a1, a2, fun v => ?_⟩
      rw [a3, htr]; simp
  | unsat db s =>
    rw [hv] at this
    exact fun ⟨b, hb⟩ => Refuted.no_model this b hb
  | _ => trivial

/-- The fact 5 leaves the trail; one clause is satisfied, another one is shortened. -/
def exUnit : List (List Int) := [[-5, 1, 2], [5, 3, 4], [5], [-1, -2, -5], [-3, -4]]

example : ∃ d, Inner {} (exUnit.map clsOf) d none ∧ d.2.trail = [⟨5, true⟩] ∧ ∃ y, clearAsserted d = .ok y ∧ (y.1.clause 1).lits.length = 2 ∧
    (y.1.clause 2).lits = [] ∧ y.2.numAsserted = 1 := by
  refine ⟨_, .built (x := exSolver 5 exUnit) (exBuilt (by decide +kernel)), by decide +kernel, ?_⟩
  have h : (match clearAsserted ((exSolver 5 exUnit).db, (exSolver 5 exUnit).s) with
    | .ok y => decide ((y.1.clause 1).lits.length = 2 ∧ (y.1.clause 2).lits = [] ∧ y.2.numAsserted = 1) | _ => false) = true := by decide +kernel
  split at h
  · rename_i z hz; exact ⟨z, hz, by simpa using h⟩
  · simp at h

end Splr
