import Verif.Model.QueueMain
import Verif.Props.C80_Whole
import Verif.Props.C34_C46_Main
import Verif.Props.C61_File
/-!
# C81: the program, from the text it reads to the texts it writes

`splrA` (Verif/Model/QueueMain.lean) reads a file, builds the solver, runs `solve` (the model of C80) and writes the answer and the certificate.
-/
namespace Splr
open Stk QStk Stage LubySpec Dimacs Cert

variable {K : Type} [LinearOrder K]

/-- Loading the lines of a file that uses the declared variables only. -/
theorem SolQ.loadLines_spec : ∀ {ls : List Line} {F : Form} {x : SolQ}, BuiltQ F x → (∀ l ∈ ls, l.Wf) →
    (∀ c ∈ clausesOf ls, ∀ i ∈ c, i.natAbs ≤ x.x.s.numVars) →
    (∃ y, x.loadLines (ls.map Line.text) = some (y, none) ∧ BuiltQ (F ++ (clausesOf ls).map clsOf) y ∧ y.x.s.numVars = x.x.s.numVars ∧ y.cnf = x.cnf) ∨
    (∃ y F' s, x.loadLines (ls.map Line.text) = some (y, some .emptyClause) ∧ RUP (F ++ (clausesOf ls).map clsOf) [] ∧ Built F' s ∧ s.db = y.db ∧
      s.s.numVars = x.x.s.numVars)
  | [], F, x, h, _, _ => .inl ⟨x, rfl, by simpa [clausesOf] using h, rfl, rfl⟩
  | .comment t :: ls, F, x, h, hw, hr => by
    simp only [List.map_cons, SolQ.loadLines, lineAct_comment, clausesOf]
    exact SolQ.loadLines_spec h (fun l hl => hw l (by simp [hl])) (by simpa [clausesOf] using hr)
  | .clause pre lits post :: ls, F, x, h, hw, hr => by
    have hl := lineAct_clause (hw _ List.mem_cons_self)
    simp only [List.map_cons, SolQ.loadLines, hl, clausesOf]
    by_cases hc : lits = []
    · subst hc
      obtain ⟨s, hs, hsx⟩ := h.sim
      exact .inr ⟨x, F, s, by simp, .inl ⟨[], by simp [clsOf], by simp⟩, hs, hsx.db.symm, by rw [← hsx.rel.same]⟩
    · rw [if_neg hc]
      simp only []
      have hlit : ∀ i ∈ lits.map (·.1), i ≠ 0 ∧ i.natAbs ≤ x.x.s.numVars := by
        intro i hi
        obtain ⟨p, hp, rfl⟩ := List.mem_map.1 hi
        exact ⟨((hw _ List.mem_cons_self).2.2 p hp).1, hr _ List.mem_cons_self _ hi⟩
      obtain ⟨s, hs, hsx⟩ := h.sim
      have hnv : s.s.numVars = x.x.s.numVars := by rw [← hsx.rel.same]
      have hrange : ∀ l ∈ clsOf (lits.map (·.1)), 1 ≤ l.var ∧ l.var ≤ s.s.numVars := by
        intro l hl
        obtain ⟨i, hi, rfl⟩ := List.mem_map.1 hl
        have := hlit i hi
        simp only [Lit.ofInt]; omega
      obtain ⟨y, rf, e, h1, h2, h3, h4⟩ := addUnchecked_spec hs.bok.1 hrange
      have hsim := addUnchecked_sim hsx hs.bok.1.dom hrange
      rw [e] at hsim
      obtain ⟨z, ez, hz⟩ : ∃ z, x.addUnchecked (clsOf (lits.map (·.1))) = some (z, rf) ∧ SolRel y z := by
        revert hsim
        generalize x.addUnchecked (clsOf (lits.map (·.1))) = q
        intro hsim
        cases hsim with
        | some h => exact ⟨_, rfl, h⟩
      have hnz : z.x.s.numVars = x.x.s.numVars := by
        have : z.x.s.numVars = y.s.numVars := by rw [← hz.rel.same]
        rw [this, h2, hnv]
      have hcz : z.cnf = x.cnf := by rw [hz.cnf, h1, hsx.cnf]
      have e1 := ez
      unfold clsOf at e1
      rw [e1]
      by_cases hrf : rf = .emptyClause
      · subst hrf
        obtain ⟨rfl, hR⟩ := h4 rfl
        refine .inr ⟨z, F, _, rfl, ?_, hs, hz.db.symm, hnv⟩
        refine (refuted_by_units hs (fun d hd => .inl hd) hR).mono fun d hd => ?_
        rcases List.mem_append.1 hd with hd | hd
        · simp [hd]
        · rw [List.mem_singleton] at hd; subst hd; simp
      · have hb := BuiltQ.line h hlit ez hrf
        have := SolQ.loadLines_spec (ls := ls) hb (fun l hl => hw l (by simp [hl])) (by
          intro c hc i hi; rw [hnz]; exact hr c (by simp [clausesOf, hc]) i hi)
        rw [hnz, hcz] at this
        cases rf with
        | emptyClause => exact absurd rfl hrf
        | _ => simpa using this

theorem SolQ.load_spec {pre : List (List Char)} {nv nc : Nat} {body : List Line} (h : GoodFile pre nv nc body) (act : Nat → Nat → Nat → Bool) :
    (∃ x, SolQ.load act (fileText pre nv nc body) = .ok x ∧ BuiltQ (formOf body) x ∧ x.x.s.numVars = nv ∧ x.cnf = nv) ∨
    (∃ y F' s, SolQ.load act (fileText pre nv nc body) = .emptyClause y ∧ RUP (formOf body) [] ∧ Built F' s ∧ s.db = y.db ∧ s.s.numVars = nv) := by
  unfold SolQ.load
  rw [openCnf_file pre nv nc body h.comments h.lines h.vars h.clauses]
  simp only []
  rcases SolQ.loadLines_spec (BuiltQ.new nv act) h.lines h.range with ⟨y, e, hb, hn, hc⟩ | ⟨y, F', s, e, hu, hs, hd, hn⟩
  · rw [e]; exact .inl ⟨y, rfl, by simpa [formOf] using hb, hn, hc⟩
  · rw [e]; exact .inr ⟨y, F', s, rfl, by simpa [formOf] using hu, hs, hd, hn⟩

theorem rup_unsat {G : Form} (h : RUP G []) : ¬ G.Satisfiable := by
  rintro ⟨a, ha⟩
  obtain ⟨l, hl, -⟩ := h.sound a ha
  simp at hl

/-- What `splr` may have done when it ends, for a user who gave it the clauses `F` over the variables 1 to `nv` in a file with the text `text`. -/
inductive Right (F : Form) (nv : Nat) (report : List (List Char)) (text : List Char) : Ending → Prop
  /-- exit code 10: a model is written, and `dmcr` accepts it -/
  | sat (vals : List Int) (hc : Canonical vals nv) (hs : Form.sat (valsAsg vals) F)
      (hd : 1 ≤ nv → (∀ t ∈ report, '\n' ∉ t ∧ ∃ r, t = 'c' :: r) → dmcr text (answerText report vals) = .valid) :
      Right F nv report text (.exits 10 (some (answerText report vals)) none)
  /-- exit code 20: there is no model, the answer says so, and the certificate file is a DRAT proof of it -/
  | unsat (proof : List Char) (hu : ¬ F.Satisfiable) (hp : VerifiedFile F proof) :
      Right F nv report text (.exits 20 (some (statusText report "s UNSATISFIABLE".toList)) (some proof))
  /-- exit code 20 without an answer file: unit propagation refutes the clauses, and what is left in the certificate file is a DRAT proof -/
  | refuted (proof : List Char) (hu : ¬ F.Satisfiable) (hr : RUP F []) (hp : VerifiedFile F proof) : Right F nv report text (.exits 20 none (some proof))
  /-- exit code 0: it does not know -/
  | unknown : Right F nv report text (.exits 0 (some (statusText report "s UNKNOWN".toList)) none)

theorem Canonical.dmcr {pre : List (List Char)} {nv nc : Nat} {body : List Line} (h : GoodFile pre nv nc body) (hnv : 1 ≤ nv) (hmax : nv < 2 ^ 31) {vals : List Int}
    (hc : Canonical vals nv) (hs : Form.sat (valsAsg vals) (formOf body)) (report : List (List Char)) (hrep : ∀ t ∈ report, '\n' ∉ t ∧ ∃ r, t = 'c' :: r) :
    dmcr (fileText pre nv nc body) (answerText report vals) = .valid := by
  obtain ⟨hlen, hcan⟩ := hc
  have hmem : ∀ i ∈ vals, ∃ k : Nat, ∃ hk : k < vals.length, vals[k] = i ∧ (i = ((k + 1 : Nat) : Int) ∨ i = -((k + 1 : Nat) : Int)) := by
    intro i hi
    obtain ⟨k, hk, rfl⟩ := List.mem_iff_getElem.1 hi
    exact ⟨k, hk, rfl, hcan k hk⟩
  have ht : TotalAnswer vals nv := by
    refine ⟨fun i hi => ?_, fun i hi hn => ?_, fun k h1 h2 => ?_⟩
    · obtain ⟨k, hk, -, h'⟩ := hmem i hi; omega
    · obtain ⟨k, hk, hki, h'⟩ := hmem i hi
      obtain ⟨j, hj, hji, h''⟩ := hmem _ hn
      have : j = k := by omega
      subst this; omega
    · have hk : k - 1 < vals.length := by omega
      have := hcan (k - 1) hk
      have hm := List.getElem_mem hk
      rcases this with e | e <;> rw [e, Nat.sub_add_cancel h1] at hm
      · exact .inl hm
      · exact .inr hm
  refine (C34_dmcr_exact h hnv ht (fun i hi => ?_) report hrep).2 hs
  obtain ⟨k, hk, -, h'⟩ := hmem i hi
  unfold Text.IsI32; omega

theorem solveA_certificate {F : Form} {x : SolQ} (h : BuiltQ F x) (hn : x.x.s.numVars < 65535) (hc : x.cnf = x.x.s.numVars) {c : CfgW} (hen : c.cfg.enable = true)
    (p : PreW) (u : Nat) (n : Counts) (ts : List (TickW K)) (low : Nat → Bool) {db : Cdb} (e : solveA c p (StageManager.new u) n ts low x = .unsat db) :
    ∃ text, fileOf (db.cert.map CertRec.ints) = some (some text) ∧ VerifiedFile F text := by
  obtain ⟨y, q, os, hy, hnv, -, -, h2⟩ := solveA_run h hc c p u n ts low
  rw [e] at h2
  have hv : solve c.cfg q os low y = .unsat db := by
    revert h2
    generalize solve c.cfg q os low y = a
    intro h2
    cases h2; rfl
  have := C61_file_is_verified hy (by omega) hen q os low (by rw [hv]; rfl)
  rw [hv] at this
  exact this

/-- **C81.** `splr --certify` on a file: it never panics, and when it ends, the exit code and the files are right. -/
theorem C81_program {pre : List (List Char)} {nv nc : Nat} {body : List Line} (h : GoodFile pre nv nc body) (hn : nv < 65535) {c : CfgW} (hen : c.cfg.enable = true)
    (p : PreW) (u : Nat) (ts : List (TickW K)) (low : Nat → Bool) (act : Nat → Nat → Nat → Bool) (report : List (List Char)) :
    Right (formOf body) nv report (fileText pre nv nc body) (splrA c p u ts low act report (fileText pre nv nc body)) ∨
    (splrA c p u ts low act report (fileText pre nv nc body) = .goesOn ∧ ts.length < answerBound nv) := by
  unfold splrA
  rcases SolQ.load_spec h act with ⟨x, e, hb, hnv, hc⟩ | ⟨y, F', s, e, hr, hs, hd, hnv⟩
  · rw [e]
    simp only []
    have hc' : x.cnf = x.x.s.numVars := by rw [hc, hnv]
    obtain ⟨k1, k2⟩ := C80_never_panics hb (by omega) hc' c p u {} ts low
    obtain ⟨k3, k4⟩ := C80_answers hb hc' c p u {} ts low
    have k5 := C80_terminates hb hc' c p u {} (ts := ts)
    cases e1 : solveA c p (StageManager.new u) {} ts low x with
    | sat vals z =>
      obtain ⟨hcan, hsat⟩ := k3 vals z e1
      rw [hnv] at hcan
      exact .inl (.sat vals hcan hsat fun h1 hrep => hcan.dmcr h h1 (by omega) hsat report hrep)
    | unsat db =>
      obtain ⟨text, e2, hf⟩ := solveA_certificate hb (by omega) hc' hen p u {} ts low e1
      simp only [e2]
      exact .inl (.unsat text (k4 hen db e1).1 hf)
    | err => exact .inl .unknown
    | panic => exact absurd e1 k1
    | fuel => exact absurd e1 k2
    | more z =>
      refine .inr ⟨rfl, ?_⟩
      by_contra hl
      exact k5 (by rw [hnv]; omega) low z e1
  · rw [e]
    simp only []
    have hb := hs.bok.1
    have := build_file (by omega) hr (cs := adds s.db.cert) hb.dom.ct
    rw [← hb.only, hd] at this
    obtain ⟨st, b, e1, e2, hf⟩ := this
    have el : leftFile y.db.cert = some b := by unfold leftFile; rw [e1]; exact e2
    rw [el]
    exact .inl (.refuted b (rup_unsat hr) hr hf)

/-- **C81.** With enough iterations it ends. -/
theorem C81_ends {pre : List (List Char)} {nv nc : Nat} {body : List Line} (h : GoodFile pre nv nc body) (hn : nv < 65535) {c : CfgW} (hen : c.cfg.enable = true)
    (p : PreW) (u : Nat) {ts : List (TickW K)} (hl : answerBound nv ≤ ts.length) (low : Nat → Bool) (act : Nat → Nat → Nat → Bool) (report : List (List Char)) :
    ∃ code ans proof, splrA c p u ts low act report (fileText pre nv nc body) = .exits code ans proof ∧
      Right (formOf body) nv report (fileText pre nv nc body) (.exits code ans proof) := by
  rcases C81_program h hn hen p u ts low act report with k | ⟨-, k⟩
  · cases e : splrA c p u ts low act report (fileText pre nv nc body) with
    | exits code ans proof => rw [e] at k; exact ⟨code, ans, proof, rfl, k⟩
    | panics => rw [e] at k; cases k
    | goesOn => rw [e] at k; cases k
  · omega

/-- **C81.** Without limits on time and memory, and if the eliminator reaches none of its limits, the exit code is 10 exactly for the satisfiable files and 20 for the
others. -/
theorem C81_exit_codes {pre : List (List Char)} {nv nc : Nat} {body : List Line} (h : GoodFile pre nv nc body) (hn : nv < 65535) {c : CfgW} (hen : c.cfg.enable = true)
    {p : PreW} {u : Nat} {ts : List (TickW K)} (hp : p.oom = false ∧ p.oom1 = false ∧ p.oom2 = false) (hts : ∀ t ∈ ts, t.timeout = false ∧ t.oom = false)
    (hpr : p.ctl.Real) (htr : ∀ t ∈ ts, t.ctl.Real) (act : Nat → Nat → Nat → Bool)
    (ha : ∀ x, SolQ.load act (fileText pre nv nc body) = .ok x → ampleRunA c p (StageManager.new u) {} ts x = true) (hl : answerBound nv ≤ ts.length) (low : Nat → Bool)
    (report : List (List Char)) :
    ((formOf body).Satisfiable ∧ ∃ ans, splrA c p u ts low act report (fileText pre nv nc body) = .exits 10 ans none) ∨
    (¬ (formOf body).Satisfiable ∧ ∃ ans proof, splrA c p u ts low act report (fileText pre nv nc body) = .exits 20 ans (some proof)) := by
  obtain ⟨code, ans, proof, e, k⟩ := C81_ends h hn hen p u hl low act report
  have key : splrA c p u ts low act report (fileText pre nv nc body) ≠ .exits 0 (some (statusText report "s UNKNOWN".toList)) none := by
    unfold splrA
    rcases SolQ.load_spec h act with ⟨x, e1, hb, hnv, hc⟩ | ⟨y, F', s, e1, -⟩
    · rw [e1]
      simp only []
      rcases C80_decides hb (by omega) (by rw [hc, hnv]) hen hp hts hpr htr (ha x e1) (by rw [hnv]; exact hl) low with ⟨vals, z, e2, -⟩ | ⟨db, e2, -⟩
      · rw [e2]; simp
      · rw [e2]; simp only []; split <;> simp
    · rw [e1]; simp only []; split <;> simp
  rw [e] at key ⊢
  cases k with
  | sat vals _ hs _ => exact .inl ⟨⟨_, hs⟩, _, rfl⟩
  | unsat f hu _ => exact .inr ⟨hu, _, _, rfl⟩
  | refuted f hu _ _ => exact .inr ⟨hu, _, _, rfl⟩
  | unknown => exact absurd rfl key

/-! The hypotheses are met, and each of the endings occurs. -/
example : ∃ ts : List (TickW Int), GoodFile ["hello".toList] 3 3 exBody ∧ 3 < 65535 ∧ exCfgW.cfg.enable = true ∧ answerBound 3 ≤ ts.length :=
  ⟨List.replicate (answerBound 3) exTickW, exFile, by decide, rfl, by simp⟩

deriving instance DecidableEq for Ending

/-- A file whose clauses have no model, which loading does not notice. -/
def exBodyU : List Line :=
  [.clause [] [(1, [' ']), (2, [' '])] [], .clause [] [(-1, [' ']), (2, [' '])] [], .clause [] [(1, [' ']), (-2, [' '])] [], .clause [] [(-1, [' ']), (-2, [' '])] []]

/-- A file that is refuted while it is loaded. -/
def exBodyR : List Line := [.clause [] [(1, [' '])] [], .clause [] [(2, [' ']), (3, [' '])] [], .clause [] [(-1, [' '])] []]

theorem exFileU : GoodFile [] 2 4 exBodyU where
  comments := by decide
  lines := by
    intro l hl
    simp only [exBodyU, List.mem_cons, List.not_mem_nil, or_false] at hl
    rcases hl with rfl | rfl | rfl | rfl <;> simp only [Line.Wf, Blank, Text.IsI32] <;> decide
  range := by decide
  vars := by decide
  clauses := by decide

theorem exFileR : GoodFile [] 3 3 exBodyR where
  comments := by decide
  lines := by
    intro l hl
    simp only [exBodyR, List.mem_cons, List.not_mem_nil, or_false] at hl
    rcases hl with rfl | rfl | rfl <;> simp only [Line.Wf, Blank, Text.IsI32] <;> decide
  range := by decide
  vars := by decide
  clauses := by decide

/-- A file with twelve variables and 51 clauses. -/
def exBodyW : List Line := exWhole.map fun c => .clause [] (c.map fun i => (i, [' '])) []

theorem exFileW : GoodFile [] 12 51 exBodyW where
  comments := by decide
  lines := by
    intro l hl
    obtain ⟨c, hc, rfl⟩ := List.mem_map.1 hl
    have key : ∀ c ∈ exWhole, ∀ i ∈ c, i ≠ 0 ∧ -2147483648 < i ∧ i ≤ 2147483647 := by decide +kernel
    refine ⟨by simp [Blank], by simp [Blank], fun p hp => ?_⟩
    obtain ⟨i, hi, rfl⟩ := List.mem_map.1 hp
    have := key c hc i hi
    refine ⟨this.1, ?_, by simp [Blank], by simp⟩
    exact this.2
  range := by decide +kernel
  vars := by decide
  clauses := by decide

example : splrA exCfgW exPreW 32 (List.replicate 30 exTickW) noLow exAct ["c r".toList] (fileText [] 12 51 exBodyW) =
    .exits 10 (some "c r\ns SATISFIABLE\nv -1 2 3 4 5 -6 -7 -8 9 -10 11 12 0\n".toList) none := by decide +kernel

example : splrA exCfgW exPreW 32 (List.replicate 30 exTickW) noLow exAct ["c r".toList] (fileText [] 2 4 exBodyU) =
    .exits 20 (some "c r\ns UNSATISFIABLE\n0\n".toList) (some "1 2 0\n-1 2 0\n1 -2 0\n-1 -2 0\n1 0\n0\n".toList) := by decide +kernel

example : splrA exCfgW exPreW 32 (List.replicate 30 exTickW) noLow exAct ["c r".toList] (fileText [] 3 3 exBodyR) = .exits 20 none (some []) := by decide +kernel

example : splrA exCfgW exPreW 32 (List.replicate 3 exTickW) noLow exAct ["c r".toList] (fileText [] 12 51 exBodyW) = .goesOn := by decide +kernel

example : ∃ ts : List (TickW Int), GoodFile [] 12 51 exBodyW ∧ 12 < 65535 ∧ exCfgW.cfg.enable = true ∧ (exPreW.oom = false ∧ exPreW.oom1 = false ∧ exPreW.oom2 = false) ∧
    (∀ t ∈ ts, t.timeout = false ∧ t.oom = false) ∧ exPreW.ctl.Real ∧ (∀ t ∈ ts, t.ctl.Real) ∧
    (∀ x, SolQ.load exAct (fileText [] 12 51 exBodyW) = .ok x → ampleRunA exCfgW exPreW (StageManager.new 32) {} ts x = true) ∧ answerBound 12 ≤ ts.length := by
  refine ⟨List.replicate 30 exTickW ++ List.replicate (answerBound 12) exTickW, exFileW, by decide, rfl, ⟨rfl, rfl, rfl⟩, fun t ht => ?_, stdCtl_real _, fun t ht => ?_,
    fun x hx => ?_, ?_⟩
  · have : t = exTickW := by
      rcases List.mem_append.1 ht with h | h <;> exact (List.mem_replicate.1 h).2
    rw [this]; exact ⟨rfl, rfl⟩
  · have : t = exTickW := by
      rcases List.mem_append.1 ht with h | h <;> exact (List.mem_replicate.1 h).2
    rw [this]; exact stdCtl_real _
  · have key : (match SolQ.load exAct (fileText [] 12 51 exBodyW) with
      | .ok x => ampleRunA exCfgW exPreW (StageManager.new 32) {} (List.replicate 30 exTickW) x &&
          ResQ.every (preprocessA exCfgW exPreW {} x) fun y =>
            ResQ.every (loopA exCfgW (List.replicate 30 exTickW) (y, 0, (StageManager.new 32).initialize 32, { ({} : Counts) with vivs := ({} : Counts).vivs + 1 })) fun z =>
              !z.1.x.s.running
      | _ => true) = true := by decide +kernel
    rw [hx] at key
    simp only [Bool.and_eq_true] at key
    exact ampleRunA_append key.1 key.2
  · rw [List.length_append, List.length_replicate, List.length_replicate]; exact Nat.le_add_left _ _

end Splr
