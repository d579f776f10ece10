import Verif.Model.Dump
import Verif.Props.C35_C37_Text
import Verif.Props.C25_C27_Api
import Verif.Props.C58_Cleared
/-!
# C59: `dump_cnf`

"dump all active clauses and assertions as a CNF file" (src/solver/build.rs:243). The file is read with the reader of the solver (`Dimacs.build`, C36).
-/
namespace Splr
open Stk Text Dimacs

theorem Lit.ofInt_toInt {l : Lit} (h : 1 ≤ l.var) : Lit.ofInt l.toInt = l := by
  obtain ⟨v, p⟩ := l
  simp only at h
  cases p
  · simp [Lit.ofInt, Lit.toInt]
  · simp [Lit.ofInt, Lit.toInt]; omega

theorem clsOf_toInt {c : Cls} (h : ∀ l ∈ c, 1 ≤ l.var) : clsOf (c.map Lit.toInt) = c := by
  unfold clsOf
  rw [List.map_map]
  exact (List.map_congr_left fun l hl => Lit.ofInt_toInt (h l hl)).trans (List.map_id _)

/-- The lines of the dump. -/
def dumpLine (c : Cls) : Line := .clause [] (c.map fun l => (l.toInt, [' '])) []

theorem dumpLine_text (c : Cls) : (dumpLine c).text = dumpClause c := by
  simp [dumpLine, Line.text, dumpClause, List.flatMap_map]

theorem dumpLine_wf {c : Cls} (h : ∀ l ∈ c, 1 ≤ l.var ∧ l.var < 2 ^ 31) : (dumpLine c).Wf := by
  refine ⟨by simp [Blank], by simp [Blank], ?_⟩
  intro p hp
  obtain ⟨l, hl, rfl⟩ := List.mem_map.1 hp
  have := h l hl
  simp only [Lit.toInt, IsI32, Blank]
  cases l.pos <;> simp <;> omega

theorem clausesOf_append : ∀ a b : List Line, clausesOf (a ++ b) = clausesOf a ++ clausesOf b
  | [], b => rfl
  | .comment _ :: a, b => by simp [clausesOf, clausesOf_append a b]
  | .clause _ _ _ :: a, b => by simp [clausesOf, clausesOf_append a b]

theorem clausesOf_dump (cs : List Cls) : clausesOf (cs.map dumpLine) = cs.map fun c => c.map Lit.toInt := by
  induction cs with
  | nil => rfl
  | cons c cs ih => simp [dumpLine, clausesOf] at ih ⊢; exact ih

/-- What is written: the clauses the solver holds, and the literals of the trail below the first decision. -/
def dumped (db : Cdb) (s : Stk) : List Cls :=
  ((db.ids.filter fun i => !(db.clause i).dead).map fun i => (db.clause i).lits) ++ (s.trail.take s.lenUpto0).map fun l => [l]

theorem dumped_spec {db : Cdb} {s : Stk} (hw : db.WF) (c : Cls) : c ∈ dumped db s ↔ Held db c ∨ ∃ l ∈ s.trail.take s.lenUpto0, c = [l] := by
  unfold dumped
  rw [List.mem_append]
  refine or_congr ?_ (by rw [List.mem_map]; simp only [eq_comm])
  constructor
  · intro h
    obtain ⟨i, hi, rfl⟩ := List.mem_map.1 h
    have := (List.mem_filter.1 hi).2
    refine ⟨fun h0 => ?_, i, rfl⟩
    simp [Cl.dead, h0] at this
  · rintro ⟨h0, i, rfl⟩
    refine List.mem_map.2 ⟨i, List.mem_filter.2 ⟨mem_ids hw h0, ?_⟩, rfl⟩
    simp [Cl.dead, h0]

/-- Reading the file back: exactly these clauses. -/
theorem dump_reads {db : Cdb} {s : Stk} (hw : db.WF) (hi : Inv db s) (hd : Dom db s) (hn : s.numVars < 2 ^ 31) (hs : db.len + s.numAsserted < 2 ^ 64) :
    ∃ text, dumpCnf db s = some text ∧ ∃ cs, Dimacs.build text = .ok s.numVars cs ∧ cs.map clsOf = dumped db s := by
  have hv : ∀ c ∈ dumped db s, c ≠ [] ∧ ∀ l ∈ c, 1 ≤ l.var ∧ l.var < 2 ^ 31 := by
    intro c hc
    rcases (dumped_spec hw c).1 hc with ⟨h0, i, rfl⟩ | ⟨l, hl, rfl⟩
    · refine ⟨h0, fun l hl => ?_⟩
      obtain ⟨a, b, -⟩ := hd.cl i l hl
      omega
    · refine ⟨by simp, fun m hm => ?_⟩
      rw [List.mem_singleton] at hm
      subst hm
      obtain ⟨a, b, -⟩ := hd.as m.var (tr_assigned (hi.tv m (List.mem_of_mem_take hl)))
      omega
  have hp : (((List.range s.numVars).drop 1).any fun v => s.elim v && (s.assign v).isSome) = false := by
    rw [List.any_eq_false]
    intro v _ h
    simp only [Bool.and_eq_true, Option.isSome_iff_ne_none] at h
    obtain ⟨-, -, e⟩ := hd.as v h.2
    rw [h.1] at e; cases e
  set alive := db.ids.filter fun i => !(db.clause i).dead with ha
  have hlen : alive.length ≤ db.len := by
    refine (List.length_filter_le _ _).trans ?_
    simp [Cdb.ids]
  refine ⟨fileText [] s.numVars (alive.length + s.numAsserted)
    ((alive.map fun i => dumpLine (db.clause i).lits) ++ .comment " from trail".toList :: (s.trail.take s.lenUpto0).map fun l => dumpLine [l]), ?_,
    (dumped db s).map fun c => c.map Lit.toInt, ?_, ?_⟩
  · unfold dumpCnf
    rw [if_neg (by rw [hp]; simp)]
    simp only [← ha]
    congr 1
    unfold fileText
    rw [List.flatMap_append, List.flatMap_cons, List.flatMap_map, List.flatMap_map]
    simp only [dumpLine_text]
    simp [dumpClause, Line.text, List.append_assoc]
  · rw [C36_reads_as_written]
    · rw [clausesOf_append, clausesOf]
      have h1 : clausesOf (alive.map fun i => dumpLine (db.clause i).lits) = (alive.map fun i => (db.clause i).lits).map fun c => c.map Lit.toInt := by
        rw [← clausesOf_dump, List.map_map]; rfl
      have h2 : clausesOf ((s.trail.take s.lenUpto0).map fun l => dumpLine [l]) = ((s.trail.take s.lenUpto0).map fun l => [l]).map fun c => c.map Lit.toInt := by
        rw [← clausesOf_dump, List.map_map]; rfl
      rw [h1, h2, ← List.map_append]
      rw [if_neg]
      · rfl
      · intro h
        obtain ⟨c, hc, e⟩ := List.mem_map.1 h
        exact (hv c hc).1 (List.map_eq_nil_iff.1 e)
    · simp
    · intro l hl
      rcases List.mem_append.1 hl with h | h
      · obtain ⟨i, hi', rfl⟩ := List.mem_map.1 h
        exact dumpLine_wf (hv _ (List.mem_append.2 (.inl (List.mem_map.2 ⟨i, hi', rfl⟩)))).2
      · rcases List.mem_cons.1 h with rfl | h
        · simp [Line.Wf]
        · obtain ⟨m, hm, rfl⟩ := List.mem_map.1 h
          exact dumpLine_wf (hv _ (List.mem_append.2 (.inr (List.mem_map.2 ⟨m, hm, rfl⟩)))).2
    · omega
    · omega
  · rw [List.map_map]
    refine (List.map_congr_left fun c hc => ?_).trans (List.map_id _)
    exact clsOf_toInt fun l hl => ((hv c hc).2 l hl).1

/-- **C59.** `dump_cnf` on a solver that has been built: it does not panic, the file can be read back, and every model of the given clauses is a model of the file. -/
theorem C59_dump_implied {F : Form} {x : Sol} (h : Built F x) (hn : x.s.numVars < 2 ^ 31) (hs : x.db.len + x.s.numAsserted < 2 ^ 64) :
    ∃ text, dumpCnf x.db x.s = some text ∧ ∃ cs, Dimacs.build text = .ok x.s.numVars cs ∧ ∀ b, Form.sat b F → Form.sat b (cs.map clsOf) := by
  have hb := h.bok.1
  obtain ⟨text, h1, cs, h2, h3⟩ := dump_reads hb.rinv.wf hb.rinv.inv hb.dom hn hs
  refine ⟨text, h1, cs, h2, fun b hF c hc => ?_⟩
  rw [h3] at hc
  obtain ⟨m1, m2⟩ := (h.models b).1 hF
  rcases (dumped_spec hb.rinv.wf c).1 hc with hc | ⟨l, hl, rfl⟩
  · exact m1 c hc
  · have ht := hb.rinv.inv.tv l (List.mem_of_mem_take hl)
    exact ⟨l, by simp, m2 l ⟨ht, hb.rinv.inv.level_root hb.lim (tr_assigned ht)⟩⟩

/-- **C59 (partial).** If no variable has a value, the file has exactly the models of the given clauses. Missing: solvers that were given a unit clause or an
assignment, for which the claim is false, see `C59_violated`. -/
theorem C59_dump_partial {F : Form} {x : Sol} (h : Built F x) (hn : x.s.numVars < 2 ^ 31) (hs : x.db.len + x.s.numAsserted < 2 ^ 64)
    (hu : ∀ v, x.s.assign v = none) :
    ∃ text, dumpCnf x.db x.s = some text ∧ ∃ cs, Dimacs.build text = .ok x.s.numVars cs ∧ ∀ b, Form.sat b (cs.map clsOf) ↔ Form.sat b F := by
  have hb := h.bok.1
  obtain ⟨text, h1, cs, h2, h3⟩ := dump_reads hb.rinv.wf hb.rinv.inv hb.dom hn hs
  refine ⟨text, h1, cs, h2, fun b => ?_⟩
  rw [h3, h.models b]
  constructor
  · refine fun hG => ⟨fun c hc => hG c ((dumped_spec hb.rinv.wf c).2 (.inl hc)), fun l hl => ?_⟩
    have := hl.1
    unfold Holds at this
    rw [hu] at this; cases this
  · rintro ⟨m1, -⟩ c hc
    rcases (dumped_spec hb.rinv.wf c).1 hc with hc | ⟨l, hl, rfl⟩
    · exact m1 c hc
    · have := hb.rinv.inv.tv l (List.mem_of_mem_take hl)
      unfold Stk.tr at this
      rw [hu] at this; cases this

/-- `dump_cnf` writes the literals of the trail below the first decision. -/
theorem mem_lenUpto0 {db : Cdb} {s : Stk} (hi : Inv db s) (hl : s.lim ≠ []) {l : Lit} : l ∈ s.trail.take s.lenUpto0 ↔ l ∈ s.trail ∧ s.level l.var = 0 := by
  obtain ⟨k, ks, e⟩ := List.exists_cons_of_ne_nil hl
  have hk : s.lenUpto0 = k := by unfold Stk.lenUpto0; rw [e]
  rw [hk]
  have hinc := hi.limInc
  rw [e, List.pairwise_cons] at hinc
  have key : ∀ pre post, s.trail = pre ++ l :: post → (s.level l.var = 0 ↔ pre.length < k) := by
    intro pre post ht
    rw [hi.lev pre l post ht, List.countP_eq_zero, e]
    constructor
    · intro h
      have := h k (by simp)
      simpa using this
    · intro h j hj
      rcases List.mem_cons.1 hj with rfl | hj
      · simpa using h
      · have := hinc.1 j hj
        simp only [decide_eq_true_eq]; omega
  constructor
  · intro h
    have hm := List.mem_of_mem_take h
    refine ⟨hm, ?_⟩
    obtain ⟨i, hi', he⟩ := List.mem_iff_getElem.1 h
    rw [List.length_take] at hi'
    rw [List.getElem_take] at he
    have ht : s.trail = s.trail.take i ++ l :: s.trail.drop (i + 1) := by
      rw [← he, List.getElem_cons_drop, List.take_append_drop]
    refine (key _ _ ht).2 ?_
    rw [List.length_take]; omega
  · rintro ⟨hm, h0⟩
    obtain ⟨pre, post, ht⟩ := List.append_of_mem hm
    have := (key pre post ht).1 h0
    rw [ht, List.take_append]
    refine List.mem_append.2 (.inr ?_)
    obtain ⟨j, hj⟩ : ∃ j, k - pre.length = j + 1 := ⟨k - pre.length - 1, by omega⟩
    rw [hj]; simp

/-- **C59 (partial).** In the main loop, when a decision has been made, the file has the models of the clauses and facts of the solver, up to the variables whose values
have been taken off the trail, which do not occur in the file. -/
theorem C59_dump_in_search_partial {cfg : Cfg} {F : Form} {x : Sol} (h : Head cfg F x) (hl : 0 < x.s.dl) (hn : x.s.numVars < 2 ^ 31) (hs : x.db.len + x.s.numAsserted < 2 ^ 64) :
    ∃ text, dumpCnf x.db x.s = some text ∧ ∃ cs, Dimacs.build text = .ok x.s.numVars cs ∧ (∀ b, IsModel x.db x.s b → Form.sat b (cs.map clsOf)) ∧
      ∀ b, Form.sat b (cs.map clsOf) → ∃ b', IsModel x.db x.s b' ∧ ∀ c ∈ cs.map clsOf, ∀ l ∈ c, b' l.var = b l.var := by
  obtain ⟨F', -, hk⟩ := h.sok
  have hr := hk.pinv.rinv
  have hlim : x.s.lim ≠ [] := by
    intro e
    unfold Stk.dl at hl
    rw [e] at hl; simp at hl
  obtain ⟨text, h1, cs, h2, h3⟩ := dump_reads hr.wf hr.inv hk.dom hn hs
  refine ⟨text, h1, cs, h2, ?_, ?_⟩ <;> rw [h3]
  · rintro b ⟨m1, m2⟩ c hc
    rcases (dumped_spec hr.wf c).1 hc with hc | ⟨l, hl, rfl⟩
    · exact m1 c hc
    · obtain ⟨a1, a2⟩ := (mem_lenUpto0 hr.inv hlim).1 hl
      exact ⟨l, by simp, m2 l ⟨hr.inv.tv l a1, a2⟩⟩
  · intro b hb
    have hoff : ∀ c ∈ dumped x.db x.s, ∀ l ∈ c, ¬ Gone x.s l.var := by
      intro c hc l hl
      rcases (dumped_spec hr.wf c).1 hc with ⟨-, i, rfl⟩ | ⟨m, hm, rfl⟩
      · exact h.ac _ ⟨i, l, hl, rfl⟩
      · rw [List.mem_singleton] at hl
        subst hl
        rintro ⟨-, hx⟩
        exact hx (List.mem_map_of_mem (List.mem_of_mem_take hm))
    classical
    let b' : Asg := fun v => if Gone x.s v then (x.s.assign v).getD false else b v
    have hsame : ∀ c ∈ dumped x.db x.s, ∀ l ∈ c, b' l.var = b l.var := fun c hc l hl => if_neg (hoff c hc l hl)
    refine ⟨b', ⟨fun c hc => ?_, fun l hf => ?_⟩, hsame⟩
    · have hc' := (dumped_spec (s := x.s) hr.wf c).2 (.inl hc)
      obtain ⟨l, hl, hs⟩ := hb c hc'
      exact ⟨l, hl, (hsame c hc' l hl).trans hs⟩
    · by_cases hg : Gone x.s l.var
      · show (if Gone x.s l.var then (x.s.assign l.var).getD false else b l.var) = l.pos
        rw [if_pos hg, show x.s.assign l.var = some l.pos from hf.1]; rfl
      · have hm : l.var ∈ x.s.trail.map Lit.var := by
          by_contra hx
          exact hg ⟨tr_assigned hf.1, hx⟩
        obtain ⟨m, hmt, e⟩ := List.mem_map.1 hm
        have hml : m = l := by
          have h1 : x.s.assign m.var = some m.pos := hr.inv.tv m hmt
          have h2 : x.s.assign l.var = some l.pos := hf.1
          rw [e, h2] at h1
          cases l; cases m; simp_all
        subst hml
        have hc' := (dumped_spec hr.wf [m]).2 (.inr ⟨m, (mem_lenUpto0 hr.inv hlim).2 ⟨hmt, hf.2⟩, rfl⟩)
        obtain ⟨l, hl, hs⟩ := hb _ hc'
        rw [List.mem_singleton] at hl
        subst hl
        exact (hsame _ hc' _ (by simp)).trans hs

/-- **C59 is violated**: at the root level `len_upto(0)` is 0 (src/assign/stack.rs:250-252), so the unit clauses are not written. The given clauses are unsatisfiable, the
file is satisfiable; and its header counts no unit clauses either. -/
theorem C59_violated : ∃ (F : Form) (x : Sol), Built F x ∧ ¬ F.Satisfiable ∧ ∃ text cs, dumpCnf x.db x.s = some text ∧ Dimacs.build text = .ok x.s.numVars cs ∧
    Form.Satisfiable (cs.map clsOf) := by
  refine ⟨_, exSolver 3 [[-1, -2, 3], [-3, -1, -2], [1], [2]], exBuilt (by decide +kernel), ?_, "p cnf 3 2\n-1 -2 3 0\n-1 -2 -3 0\nc from trail\n".toList, [[-1, -2, 3], [-1, -2, -3]], by decide +kernel, by decide +kernel, ⟨fun _ => false, ?_⟩⟩
  · rintro ⟨b, hb⟩
    have h1 := hb (clsOf [1]) (by decide)
    have h2 := hb (clsOf [2]) (by decide)
    have h3 := hb (clsOf [-1, -2, 3]) (by decide)
    have h4 := hb (clsOf [-3, -1, -2]) (by decide)
    simp [Cls.sat, clsOf, Lit.ofInt, Lit.sat] at h1 h2 h3 h4
    simp [h1, h2] at h3 h4
    rw [h3] at h4; cases h4
  · decide +kernel

example : Built ([[-1, 2, 3], [-3, -1, -2], [1, -2]].map clsOf) (exSolver 3 [[-1, 2, 3], [-3, -1, -2], [1, -2]]) ∧
    dumpCnf (exSolver 3 [[-1, 2, 3], [-3, -1, -2], [1, -2]]).db (exSolver 3 [[-1, 2, 3], [-3, -1, -2], [1, -2]]).s = some "p cnf 3 3\n-1 2 3 0\n-1 -2 -3 0\n1 -2 0\nc from trail\n".toList ∧
    (∀ v, (exSolver 3 [[-1, 2, 3], [-3, -1, -2], [1, -2]]).s.assign v = none) := by
  have hb : Built ([[-1, 2, 3], [-3, -1, -2], [1, -2]].map clsOf) (exSolver 3 [[-1, 2, 3], [-3, -1, -2], [1, -2]]) := exBuilt (by decide +kernel)
  refine ⟨hb, by decide +kernel, fun v => ?_⟩
  by_contra hn
  obtain ⟨a, b, -⟩ := hb.bok.1.dom.as v hn
  have h : ∀ v ≤ (exSolver 3 [[-1, 2, 3], [-3, -1, -2], [1, -2]]).s.numVars, (exSolver 3 [[-1, 2, 3], [-3, -1, -2], [1, -2]]).s.assign v = none := by decide +kernel
  exact hn (h v b)

/-- A state of the main loop above the root level. -/
example : ∃ y, Head {} (exDeep.map clsOf) y ∧ 0 < y.s.dl ∧ y.s.numVars < 2 ^ 31 ∧ y.db.len + y.s.numAsserted < 2 ^ 64 := by
  have h : (match headOf {} plainPre [plainOrc] (exSolver 11 exDeep) with
    | some y => decide (0 < y.s.dl ∧ y.s.numVars < 2 ^ 31 ∧ y.db.len + y.s.numAsserted < 2 ^ 64)
    | none => false) = true := by decide +kernel
  split at h
  · rename_i y e
    exact ⟨y, (Head.of exDeep_built e).1, of_decide_eq_true h⟩
  · cases h

end Splr
