import Verif.Props.C01_C02_Solve
import Verif.Props.C35_C37_Text
/-!
# C34, C46: the programs `splr` and `dmcr`
-/
namespace Splr
open Dimacs

/-! ## loading a file -/

theorem Sol.loadLines_spec : ∀ {ls : List Line} {F : Form} {x : Sol}, Built F x → (∀ l ∈ ls, l.Wf) →
    (∀ c ∈ clausesOf ls, ∀ i ∈ c, i.natAbs ≤ x.s.numVars) →
    (∃ y, x.loadLines (ls.map Line.text) = some (y, none) ∧ Built (F ++ (clausesOf ls).map clsOf) y ∧ y.s.numVars = x.s.numVars) ∨
    (∃ y, x.loadLines (ls.map Line.text) = some (y, some .emptyClause) ∧ ¬ Form.Satisfiable (F ++ (clausesOf ls).map clsOf))
  | [], F, x, h, _, _ => .inl ⟨x, rfl, by simpa [clausesOf] using h, rfl⟩
  | .comment t :: ls, F, x, h, hw, hr => by
    simp only [List.map_cons, Sol.loadLines, lineAct_comment, clausesOf]
    exact Sol.loadLines_spec h (fun l hl => hw l (by simp [hl])) (by simpa [clausesOf] using hr)
  | .clause pre lits post :: ls, F, x, h, hw, hr => by
    have hl := lineAct_clause (hw _ List.mem_cons_self)
    simp only [List.map_cons, Sol.loadLines, hl, clausesOf]
    by_cases hc : lits = []
    · subst hc
      refine .inr ⟨x, by simp, fun ⟨b, hb⟩ => ?_⟩
      obtain ⟨l, hl, -⟩ := hb (clsOf []) (by simp)
      simp [clsOf] at hl
    · rw [if_neg hc]
      simp only []
      have hlit : ∀ i ∈ lits.map (·.1), i ≠ 0 ∧ i.natAbs ≤ x.s.numVars := by
        intro i hi
        obtain ⟨p, hp, rfl⟩ := List.mem_map.1 hi
        exact ⟨((hw _ List.mem_cons_self).2.2 p hp).1, hr _ List.mem_cons_self _ hi⟩
      obtain ⟨y, rf, e, -, h2, h3, h4⟩ := addUnchecked_spec h.bok.1 (c := clsOf (lits.map (·.1))) (by
        intro l hl
        obtain ⟨i, hi, rfl⟩ := List.mem_map.1 hl
        have := hlit i hi
        simp only [Lit.ofInt]; omega)
      have e' := e
      unfold clsOf at e'
      rw [e']
      by_cases hrf : rf = .emptyClause
      · subst hrf
        obtain ⟨rfl, hR⟩ := h4 rfl
        refine .inr ⟨y, rfl, fun ⟨b, hb⟩ => hR.sound ⟨b, fun d hd => hb d ?_⟩⟩
        rcases List.mem_append.1 hd with hd | hd
        · simp [hd]
        · rw [List.mem_singleton] at hd; subst hd; simp
      · have hb := Built.line h hlit e hrf
        have := Sol.loadLines_spec (ls := ls) hb (fun l hl => hw l (by simp [hl])) (by
          intro c hc i hi; rw [h2]; exact hr c (by simp [clausesOf, hc]) i hi)
        rw [h2] at this
        cases rf with
        | emptyClause => exact absurd rfl hrf
        | _ => simpa using this

/-- A file in the format of C36, over the declared variables. -/
structure GoodFile (pre : List (List Char)) (nv nc : Nat) (body : List Line) : Prop where
  comments : ∀ t ∈ pre, '\n' ∉ t
  lines : ∀ l ∈ body, l.Wf
  range : ∀ c ∈ clausesOf body, ∀ i ∈ c, i.natAbs ≤ nv
  vars : nv < 2 ^ 64
  clauses : nc < 2 ^ 64

/-- The formula written in the lines. -/
def formOf (body : List Line) : Form := (clausesOf body).map clsOf

theorem Sol.load_spec {pre : List (List Char)} {nv nc : Nat} {body : List Line} (h : GoodFile pre nv nc body) :
    (∃ x, Sol.load (fileText pre nv nc body) = .ok x ∧ Built (formOf body) x ∧ x.s.numVars = nv) ∨
    (Sol.load (fileText pre nv nc body) = .emptyClause ∧ ¬ (formOf body).Satisfiable) := by
  unfold Sol.load
  rw [openCnf_file pre nv nc body h.comments h.lines h.vars h.clauses]
  simp only []
  rcases Sol.loadLines_spec (Built.new nv) h.lines h.range with ⟨y, e, hb, hn⟩ | ⟨y, e, hu⟩
  · rw [e]; exact .inl ⟨y, rfl, by simpa [formOf] using hb, hn⟩
  · rw [e]; exact .inr ⟨rfl, by simpa [formOf] using hu⟩

/-! ## C46 -/

/-- **C46.** Exit code 10: the answer file holds a model of the clauses of the file. -/
theorem C46_exit_10 {pre : List (List Char)} {nv nc : Nat} {body : List Line} (h : GoodFile pre nv nc body) (cfg : Cfg) (p : Pre) (os : List Orc)
    (low : Nat → Bool) (report : List (List Char)) {ans : Option (List Char)}
    (e : splrMain cfg p os low report (fileText pre nv nc body) = some (10, ans)) :
    ∃ vals, ans = some (answerText report vals) ∧ Canonical vals nv ∧ Form.sat (valsAsg vals) (formOf body) := by
  unfold splrMain at e
  rcases Sol.load_spec h with ⟨x, hx, hb, rfl⟩ | ⟨hx, -⟩
  · rw [hx] at e
    simp only [] at e
    cases hv : (solve cfg p os low x).verdict with
    | sat vals =>
      rw [hv] at e
      simp only [Option.some.injEq, Prod.mk.injEq, true_and] at e
      exact ⟨vals, e.symm, C49_model_is_canonical hb cfg p os low hv, C01_sat_answers_are_models hb cfg p os low hv⟩
    | _ => rw [hv] at e; simp at e
  · rw [hx] at e; simp at e

/-- **C46.** Exit code 20: the clauses of the file are unsatisfiable, and no model is written. -/
theorem C46_exit_20 {pre : List (List Char)} {nv nc : Nat} {body : List Line} (h : GoodFile pre nv nc body) {cfg : Cfg} (hc : cfg.enable = true)
    (p : Pre) (os : List Orc) (low : Nat → Bool) (report : List (List Char)) {ans : Option (List Char)}
    (e : splrMain cfg p os low report (fileText pre nv nc body) = some (20, ans)) :
    ¬ (formOf body).Satisfiable ∧ ∀ a, ans = some a → a = statusText report "s UNSATISFIABLE".toList := by
  unfold splrMain at e
  rcases Sol.load_spec h with ⟨x, hx, hb, rfl⟩ | ⟨hx, hu⟩
  · rw [hx] at e
    simp only [] at e
    cases hv : (solve cfg p os low x).verdict with
    | unsat =>
      rw [hv] at e
      simp only [Option.some.injEq, Prod.mk.injEq, true_and] at e
      exact ⟨C02_unsat_answers_are_correct hb hc p os low hv, fun a ha => by rw [← e] at ha; exact (Option.some.inj ha).symm⟩
    | _ => rw [hv] at e; simp at e
  · rw [hx] at e
    simp only [Option.some.injEq, Prod.mk.injEq, true_and] at e
    exact ⟨hu, fun a ha => by rw [← e] at ha; simp at ha⟩

/-- **C46.** The codes are 10, 20 and 0; with 0 (an error) the answer file says UNKNOWN. -/
theorem C46_other_codes (cfg : Cfg) (p : Pre) (os : List Orc) (low : Nat → Bool) (report : List (List Char)) (text : List Char) {code : Nat}
    {ans : Option (List Char)} (e : splrMain cfg p os low report text = some (code, ans)) :
    code = 10 ∨ code = 20 ∨ code = 0 ∧ ans = some (statusText report "s UNKNOWN".toList) := by
  unfold splrMain at e
  split at e
  · simp at e; exact .inr (.inl e.1.symm)
  · simp at e
  · split at e
    · simp at e; exact .inl e.1.symm
    · simp at e; exact .inr (.inl e.1.symm)
    · simp at e; exact .inr (.inr ⟨e.1.symm, e.2.symm⟩)
    · simp at e

/-- A file: `p cnf 3 3`, the clauses (1 ∨ ¬2), (2 ∨ 3), (¬1 ∨ ¬3), a comment. -/
def exBody : List Line := [.clause [] [(1, [' ']), (-2, [' '])] [], .comment "note".toList, .clause [' '] [(2, [' ']), (3, [' ', ' '])] [' '], .clause [] [(-1, [' ']), (-3, [' '])] []]

theorem exFile : GoodFile ["hello".toList] 3 3 exBody where
  comments := by decide
  lines := by
    intro l hl
    simp only [exBody, List.mem_cons, List.not_mem_nil, or_false] at hl
    rcases hl with rfl | rfl | rfl | rfl <;> simp only [Line.Wf, Blank, Text.IsI32] <;> decide
  range := by decide
  vars := by decide
  clauses := by decide

example : String.ofList (fileText ["hello".toList] 3 3 exBody) = "chello\np cnf 3 3\n1 -2 0\ncnote\n 2 3  0 \n-1 -3 0\n" := by decide +kernel

example : splrMain {} plainPre (List.replicate 9 plainOrc) noLow ["c r".toList] (fileText ["hello".toList] 3 3 exBody) =
    some (10, some "c r\ns SATISFIABLE\nv 1 2 -3 0\n".toList) := by decide +kernel

example : splrMain {} plainPre (List.replicate 9 plainOrc) noLow ["c r".toList] "p cnf 2 4\n1 2 0\n-1 2 0\n1 -2 0\n-1 -2 0\n".toList =
    some (20, some "c r\ns UNSATISFIABLE\n0\n".toList) := by decide +kernel

/-! ## C34 -/

theorem inject_go : ∀ {v : List Int} {x : Sol}, Stk.Inv x.db x.s → x.s.lim = [] →
    (∀ y, Sol.injectAssignment.go x v = (y, none) → y.db = x.db ∧ (∀ m, y.s.tr m ↔ x.s.tr m ∨ m ∈ clsOf v)) ∧
    (∀ y e, Sol.injectAssignment.go x v = (y, some e) → ∃ l ∈ clsOf v, x.s.tr l.neg ∨ l.neg ∈ clsOf v)
  | [], x, _, _ => by
    constructor
    · intro y e; simp only [Sol.injectAssignment.go, Prod.mk.injEq, and_true] at e; subst e; simp [clsOf]
    · intro y e h; simp [Sol.injectAssignment.go] at h
  | i :: is, x, hi, hl => by
    unfold Sol.injectAssignment.go
    set l := Lit.ofInt i with hli
    cases ha : x.s.assign l.var with
    | none =>
      obtain ⟨s', e, i1, l1, t1, -⟩ := assignRoot_new hi hl ha
      rw [e]
      simp only []
      obtain ⟨h1, h2⟩ := inject_go (v := is) (x := { x with s := s' }) (i1 x.db) l1
      constructor
      · intro y hy
        obtain ⟨a, b⟩ := h1 y hy
        refine ⟨a, fun m => ?_⟩
        rw [b m]; simp only []; rw [t1 m]
        simp only [clsOf, List.map_cons, List.mem_cons]; tauto
      · intro y e hy
        obtain ⟨m, hm, hh⟩ := h2 y e hy
        simp only [clsOf, List.map_cons, List.mem_cons] at hm hh ⊢
        rw [t1] at hh
        exact ⟨m, .inr hm, by tauto⟩
    | some b =>
      have hlev : x.s.level l.var = 0 := hi.level_root hl (by rw [ha]; simp)
      have hs : x.s.assignRoot noLow l = (x.s, b == l.pos) := by
        unfold Stk.assignRoot
        rw [Stk.cancelUntil_noop (by unfold Stk.dl; rw [hl]; simp)]
        simp only [ha]
        have : upd x.s.level l.var 0 = x.s.level := by funext w; unfold upd; split <;> simp_all
        rw [this]
      rw [hs]
      cases hb : b == l.pos with
      | true =>
        have : x.s.tr l := by unfold Stk.tr; rw [ha]; simp at hb; rw [hb]
        obtain ⟨h1, h2⟩ := inject_go (v := is) (x := { x with s := x.s }) hi hl
        constructor
        · intro y hy
          obtain ⟨a, b⟩ := h1 y hy
          refine ⟨a, fun m => ?_⟩
          rw [b m]
          simp only [clsOf, List.map_cons, List.mem_cons]
          constructor
          · rintro (h | h) <;> simp [h]
          · rintro (h | rfl | h) <;> simp_all
        · intro y e hy
          obtain ⟨m, hm, hh⟩ := h2 y e hy
          simp only [clsOf, List.map_cons, List.mem_cons] at hm hh ⊢
          exact ⟨m, .inr hm, by tauto⟩
      | false =>
        constructor
        · intro y hy; simp at hy
        · intro y e hy
          refine ⟨l, by simp [clsOf, hli], .inl ?_⟩
          unfold Stk.tr; rw [Lit.neg_var, ha]
          cases b <;> cases hp : l.pos <;> simp_all

/-- The answer gives a value to each of the variables `1..nv`, and no variable gets two. -/
structure TotalAnswer (v : List Int) (nv : Nat) : Prop where
  nonzero : ∀ i ∈ v, i ≠ 0
  consistent : ∀ i ∈ v, -i ∉ v
  total : ∀ k : Nat, 1 ≤ k → k ≤ nv → (k : Int) ∈ v ∨ -(k : Int) ∈ v

theorem ofInt_neg {i : Int} (h : i ≠ 0) : (Lit.ofInt i).neg = Lit.ofInt (-i) := by
  simp only [Lit.ofInt, Lit.neg, Int.natAbs_neg, Lit.mk.injEq, true_and]
  rcases Int.lt_trichotomy i 0 with h' | h' | h'
  · simp [h', Int.not_lt.2 (Int.le_of_lt h')]
  · exact absurd h' h
  · simp [h', Int.not_lt.2 (Int.le_of_lt h')]

theorem ofInt_inj {i j : Int} (_h : i ≠ 0) (_h' : j ≠ 0) (e : Lit.ofInt i = Lit.ofInt j) : i = j := by
  simp only [Lit.ofInt, Lit.mk.injEq, decide_eq_decide] at e
  omega

/-- A literal is true under the assignment described by a total answer exactly if it is listed. -/
theorem TotalAnswer.sat_iff {v : List Int} {nv : Nat} (h : TotalAnswer v nv) {l : Lit} (h1 : 1 ≤ l.var) (h2 : l.var ≤ nv) :
    l.sat (valsAsg v) ↔ l ∈ clsOf v := by
  have key : ∀ i : Int, i ≠ 0 → (Lit.ofInt i ∈ clsOf v ↔ i ∈ v) := by
    intro i hi
    simp only [clsOf, List.mem_map]
    exact ⟨fun ⟨j, hj, e⟩ => by rw [← ofInt_inj (h.nonzero j hj) hi e]; exact hj, fun hi => ⟨i, hi, rfl⟩⟩
  have hl : l = Lit.ofInt l.toInt := by
    cases l with
    | mk w b =>
      simp only [] at h1
      cases b <;> simp [Lit.toInt, Lit.ofInt]; omega
  have h0 : l.toInt ≠ 0 := by unfold Lit.toInt; split <;> omega
  rw [hl, key _ h0, ← hl]
  unfold Lit.sat valsAsg Lit.toInt
  cases hp : l.pos
  · simp only [decide_eq_false_iff_not, Bool.false_eq_true, if_false]
    constructor
    · intro hn; exact (h.total _ h1 h2).resolve_left hn
    · intro hm hn; exact h.consistent _ hn hm
  · simp

theorem injectAssignment_eq (x : Sol) {v : List Int} (hv : v ≠ []) : x.injectAssignment v = Sol.injectAssignment.go x v := by
  unfold Sol.injectAssignment; rw [if_neg hv]

/-- `inject_assignment` and `validate` on a solver that was given `F`. -/
theorem Built.check {F : Form} {x : Sol} (h : Built F x) {v : List Int} (hv : v ≠ []) :
    ((∃ y, x.injectAssignment v = (y, none) ∧ y.validate = none ∧ (∀ m, y.s.tr m ↔ x.s.tr m ∨ m ∈ clsOf v) ∧
        ∀ i, (x.db.clause i).lits ≠ [] → ∃ l ∈ (x.db.clause i).lits, y.s.tr l) ∨
      (∃ y, x.injectAssignment v = (y, none) ∧ y.validate ≠ none ∧ ∃ i, (x.db.clause i).lits ≠ [] ∧ ∀ l ∈ (x.db.clause i).lits, l ∉ clsOf v) ∨
      (∃ y e, x.injectAssignment v = (y, some e) ∧ ∃ l ∈ clsOf v, x.s.tr l.neg ∨ l.neg ∈ clsOf v)) := by
  have hb := h.bok.1
  obtain ⟨h1, h2⟩ := inject_go (v := v) hb.rinv.inv hb.lim
  rw [← injectAssignment_eq x hv] at h1 h2
  cases he : x.injectAssignment v with
  | mk y e =>
    cases e with
    | some e => exact .inr (.inr ⟨y, e, rfl, h2 y e he⟩)
    | none =>
      obtain ⟨hdb, htr⟩ := h1 y he
      obtain ⟨v1, v2⟩ := validate_strict (db := y.db) (by rw [hdb]; exact hb.rinv.wf) y.s.assign
      cases hval : y.db.validate y.s.assign true with
      | none =>
        refine .inl ⟨y, rfl, by unfold Sol.validate; rw [hval]; rfl, htr, fun i hi => ?_⟩
        rw [hdb] at v1
        rw [hdb] at hval
        exact v1.1 hval i hi (hb.prim i hi)
      | some i =>
        obtain ⟨a, -, c⟩ := v2 i hval
        rw [hdb] at a c
        exact .inr (.inl ⟨y, rfl, by unfold Sol.validate; rw [hval]; simp, i, a, fun l hl hm => c l hl ((htr l).2 (.inr hm))⟩)

/-- The checker on a formula file and a total answer. -/
theorem Built.check_total {F : Form} {x : Sol} (h : Built F x) {v : List Int} (hv : v ≠ []) (ht : TotalAnswer v x.s.numVars) :
    (∃ y, x.injectAssignment v = (y, none) ∧ y.validate = none) ↔ Form.sat (valsAsg v) F := by
  have hb := h.bok.1
  have hvar : ∀ i, ∀ l ∈ (x.db.clause i).lits, 1 ≤ l.var ∧ l.var ≤ x.s.numVars := fun i l hl => ⟨(hb.dom.cl i l hl).1, (hb.dom.cl i l hl).2.1⟩
  have hrv : ∀ l, x.s.tr l → 1 ≤ l.var ∧ l.var ≤ x.s.numVars := fun l hl =>
    ⟨(hb.dom.as _ (Stk.tr_assigned hl)).1, (hb.dom.as _ (Stk.tr_assigned hl)).2.1⟩
  have hroot : ∀ l, x.s.tr l → Root x.s l := fun l hl => ⟨hl, hb.rinv.inv.level_root hb.lim (Stk.tr_assigned hl)⟩
  rw [hb.models]
  rcases h.check hv with ⟨y, e, hn, htr, hcl⟩ | ⟨y, e, hn, i, hi, hcl⟩ | ⟨y, er, e, l, hl, hbad⟩
  · have hT : ∀ l, 1 ≤ l.var → l.var ≤ x.s.numVars → y.s.tr l → l.sat (valsAsg v) := by
      intro l h1 h2 hl
      by_contra hns
      have hneg : l.neg.sat (valsAsg v) := by simpa using hns
      have := (ht.sat_iff (l := l.neg) h1 h2).1 hneg
      exact Stk.tr_not_neg hl ((htr _).2 (.inr this))
    refine ⟨fun _ => ⟨fun i hi => ?_, fun l hl => ?_⟩, fun _ => ⟨y, e, hn⟩⟩
    · obtain ⟨l, hl, hs⟩ := hcl i hi
      exact ⟨l, hl, hT l (hvar i l hl).1 (hvar i l hl).2 hs⟩
    · exact hT l (hrv l hl.1).1 (hrv l hl.1).2 ((htr l).2 (.inl hl.1))
  · constructor
    · rintro ⟨z, e', hz⟩; rw [e] at e'; simp only [Prod.mk.injEq, and_true] at e'; subst e'; exact absurd hz hn
    · rintro ⟨hL, -⟩
      obtain ⟨l, hl, hs⟩ := hL i hi
      exact absurd ((ht.sat_iff (hvar i l hl).1 (hvar i l hl).2).1 hs) (hcl l hl)
  · constructor
    · rintro ⟨z, e', hz⟩; rw [e] at e'; simp at e'
    · rintro ⟨-, hU⟩
      rcases hbad with hbad | hbad
      · have h1 := hU _ (hroot _ hbad)
        have h2 := (ht.sat_iff (l := l) (hrv _ hbad).1 (hrv _ hbad).2).2 hl
        rw [Lit.sat_neg] at h1; exact absurd h2 h1
      · obtain ⟨i, hi, rfl⟩ := List.mem_map.1 hl
        obtain ⟨j, hj, e⟩ := List.mem_map.1 hbad
        rw [ofInt_neg (ht.nonzero i hi)] at e
        have := ofInt_inj (ht.nonzero j hj) (by have := ht.nonzero i hi; omega) e
        subst this
        exact absurd hj (ht.consistent i hi)

/-- **C34.** For an answer giving a value to every variable, `dmcr` reports a valid assignment set exactly if the answer satisfies
the clauses of the file. -/
theorem C34_dmcr_exact {pre : List (List Char)} {nv nc : Nat} {body : List Line} (h : GoodFile pre nv nc body) {v : List Int}
    (hnv : 1 ≤ nv) (ht : TotalAnswer v nv) (h32 : ∀ i ∈ v, Text.IsI32 i) (comments : List (List Char)) (hc : ∀ t ∈ comments, '\n' ∉ t ∧ ∃ r, t = 'c' :: r) :
    dmcr (fileText pre nv nc body) (answerText comments v) = .valid ↔ Form.sat (valsAsg v) (formOf body) := by
  have hv : v ≠ [] := by
    rintro rfl
    have := ht.total 1 (Nat.le_refl 1) hnv
    simp at this
  unfold dmcr
  rcases Sol.load_spec h with ⟨x, hx, hb, rfl⟩ | ⟨hx, hu⟩
  · rw [hx, C35_answer_roundtrip comments v hc fun i hi => ⟨ht.nonzero i hi, h32 i hi⟩]
    rw [← hb.check_total hv ht]
    simp only []
    cases he : x.injectAssignment v with
    | mk y e =>
      cases e with
      | some e => simp
      | none =>
        simp only [Prod.mk.injEq, and_true]
        constructor
        · intro hd
          refine ⟨y, rfl, ?_⟩
          by_contra hn
          rw [if_pos (Option.isSome_iff_ne_none.2 hn)] at hd; simp at hd
        · rintro ⟨z, rfl, hz⟩
          rw [hz]; rfl
  · rw [hx]
    constructor
    · intro hd; simp at hd
    · intro hs; exact absurd ⟨_, hs⟩ hu

/-- **C34**, partial answers: a set reported as valid can be extended to a model of the clauses of the file. -/
theorem C34_incomplete_answers {pre : List (List Char)} {nv nc : Nat} {body : List Line} (h : GoodFile pre nv nc body) {ans : List Char} {v : List Int}
    (hr : readAnswer (Text.readLines ans) = .some_ v) (e : dmcr (fileText pre nv nc body) ans = .valid) :
    ∃ b : Asg, (∀ l ∈ clsOf v, l.sat b) ∧ Form.sat b (formOf body) := by
  unfold dmcr at e
  rcases Sol.load_spec h with ⟨x, hx, hb, rfl⟩ | ⟨hx, hu⟩
  · rw [hx, hr] at e
    simp only [] at e
    have hv : v ≠ [] := by
      rintro rfl
      simp [Sol.injectAssignment] at e
    rcases hb.check hv with ⟨y, e1, hn, htr, hcl⟩ | ⟨y, e1, hn, -⟩ | ⟨y, er, e1, -⟩
    · refine ⟨fun w => (y.s.assign w).getD false, fun l hl => ?_, (hb.bok.1.models _).2 ⟨fun i hi => ?_, fun l hl => ?_⟩⟩
      · have := (htr l).2 (.inr hl)
        unfold Lit.sat; unfold Stk.tr at this; simp only [this, Option.getD_some]
      · obtain ⟨l, hl, this⟩ := hcl i hi
        refine ⟨l, hl, ?_⟩
        unfold Lit.sat; unfold Stk.tr at this; simp only [this, Option.getD_some]
      · have := (htr l).2 (.inl hl.1)
        unfold Lit.sat; unfold Stk.tr at this; simp only [this, Option.getD_some]
    · rw [e1] at e; simp only [] at e
      rw [if_pos (Option.isSome_iff_ne_none.2 hn)] at e; simp at e
    · rw [e1] at e; simp at e
  · rw [hx] at e; simp at e

/-- The empty answer is always reported as inconsistent, also for the formula without variables, of which it is the model. -/
theorem C34_empty_answer : dmcr "p cnf 0 0\n".toList "s SATISFIABLE\nv 0\n".toList = .inconsistent := by decide +kernel

/-- **C46** and C34: what `splr` writes with exit code 10 is accepted by `dmcr`. -/
theorem C46_dmcr_accepts {pre : List (List Char)} {nv nc : Nat} {body : List Line} (h : GoodFile pre nv nc body) (hnv : 1 ≤ nv) (hmax : nv < 2 ^ 31)
    (cfg : Cfg) (p : Pre) (os : List Orc) (low : Nat → Bool) (report : List (List Char)) (hrep : ∀ t ∈ report, '\n' ∉ t ∧ ∃ r, t = 'c' :: r)
    {ans : Option (List Char)} (e : splrMain cfg p os low report (fileText pre nv nc body) = some (10, ans)) :
    ∃ a, ans = some a ∧ dmcr (fileText pre nv nc body) a = .valid := by
  obtain ⟨vals, rfl, ⟨hlen, hcan⟩, hs⟩ := C46_exit_10 h cfg p os low report e
  have hmem : ∀ i ∈ vals, ∃ k : Nat, ∃ hk : k < vals.length, vals[k] = i ∧ (i = ((k + 1 : Nat) : Int) ∨ i = -((k + 1 : Nat) : Int)) := by
    intro i hi
    obtain ⟨k, hk, rfl⟩ := List.mem_iff_getElem.1 hi
    exact ⟨k, hk, rfl, hcan k hk⟩
  have ht : TotalAnswer vals nv := by
    refine ⟨fun i hi => ?_, fun i hi hn => ?_, fun k h1 h2 => ?_⟩
    · obtain ⟨k, hk, -, h'⟩ := hmem i hi; omega
    · obtain ⟨k, hk, hki, h'⟩ := hmem i hi
      obtain ⟨j, hj, hji, h''⟩ := hmem _ hn
      have : j = k := by omega
      subst this; omega
    · have hk : k - 1 < vals.length := by omega
      have := hcan (k - 1) hk
      have hm := List.getElem_mem hk
      rcases this with e | e <;> rw [e, Nat.sub_add_cancel h1] at hm
      · exact .inl hm
      · exact .inr hm
  refine ⟨_, rfl, (C34_dmcr_exact h hnv ht (fun i hi => ?_) report hrep).2 hs⟩
  obtain ⟨k, hk, -, h'⟩ := hmem i hi
  unfold Text.IsI32; omega

example : dmcr (fileText ["hello".toList] 3 3 exBody) (answerText ["c r".toList] [1, 2, -3]) = .valid ∧
    dmcr (fileText ["hello".toList] 3 3 exBody) (answerText ["c r".toList] [1, 2, 3]) = .invalid ∧ TotalAnswer [1, 2, -3] 3 :=
  ⟨by decide +kernel, by decide +kernel, by decide, by decide, by
    intro k h1 h2
    have : k = 1 ∨ k = 2 ∨ k = 3 := by omega
    rcases this with rfl | rfl | rfl <;> decide⟩

end Splr
