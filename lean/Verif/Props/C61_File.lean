import Verif.Lemmas.CertFile
import Verif.Props.C24_C51_Proof
import Verif.Props.C23_Certificate
import Verif.Props.C03_C11_Search
/-!
# C61, C62: the certificate file

C24 is about the lines that the solver records, C23 about the text that is written for lines. Here both are put together: the file itself is
what a checker is given.
-/
namespace Splr
open Cert Text

theorem Accepted.snoc {strict : Bool} : ∀ {rs : List CertRec} {K : Form} {r : CertRec}, Accepted strict K rs → LineOK (listedAll strict K rs) r →
    Accepted strict K (rs ++ [r])
  | [], _, _, _, h => ⟨h, trivial⟩
  | _ :: rs, _, _, ha, h => ⟨ha.1, Accepted.snoc (rs := rs) ha.2 h⟩

/-- **C61.** When `solve` answers UNSAT, the certificate file (everything that was recorded from the first clause on, however often the queue was
flushed, and then closed) is a DRAT proof for the given clauses: it can be read, its lines are accepted one after another, and
they end in a conflict. -/
theorem C61_file_is_verified {F : Form} {x : Sol} (h : Built F x) (hv : x.s.numVars < 2147483648) {cfg : Cfg} (hc : cfg.enable = true) (p : Pre)
    (os : List Orc) (low : Nat → Bool) (e : (solve cfg p os low x).verdict = .unsat) :
    ∃ text, fileOf ((solve cfg p os low x).cert.map CertRec.ints) = some (some text) ∧ VerifiedFile F text := by
  have hs := solve_spec hc (p := p) (os := os) (low := low) h.bok.1
  have hver := C24_certificate_is_verified h hc p os low e
  cases hs' : solve cfg p os low x with
  | unsat db =>
    rw [hs'] at hs hver
    obtain ⟨-, -, hw⟩ := hs
    simp only [Ans.cert] at hver ⊢
    have hwords := accepted_words hver.1 h.words hw
    obtain ⟨text, e1, e2⟩ := C23_roundtrip (db.cert.map CertRec.ints) (by
      intro r hr
      obtain ⟨r', hr', rfl⟩ := List.mem_map.1 hr
      have := word_ok hv (hwords r' hr')
      cases r' <;> exact this)
    refine ⟨text, e1, _, e2, ?_⟩
    rw [List.map_append, lines_ints fun r hr l hl => ((hwords r hr).2 l hl).1]
    refine ⟨hver.1.snoc (.inl hver.2), ?_⟩
    rw [listedAll, List.map_cons, List.map_nil, List.foldl_append]
    exact .inl ⟨[], by simp [listed, Rec.line, clsOf], by simp⟩
  | _ => rw [hs'] at e; simp [Ans.verdict] at e

/-- The file of a run with learnt, shortened and deleted clauses. -/
example : Built (exUnsat.map clsOf) (exSolver 3 exUnsat) ∧ (exSolver 3 exUnsat).s.numVars < 2147483648 ∧
    (solve {} plainPre (List.replicate 9 stageOrc) noLow (exSolver 3 exUnsat)).verdict = .unsat ∧
    ∃ text, fileOf ((solve {} plainPre (List.replicate 9 stageOrc) noLow (exSolver 3 exUnsat)).cert.map CertRec.ints) = some (some text) ∧
      100 < text.length ∧ 'd' ∈ text := by
  refine ⟨exBuilt (by decide +kernel), by decide +kernel, by decide +kernel, ?_⟩
  refine ⟨((fileOf ((solve {} plainPre (List.replicate 9 stageOrc) noLow (exSolver 3 exUnsat)).cert.map CertRec.ints)).getD none).getD [], ?_, ?_, ?_⟩ <;>
    decide +kernel

/-- The formula has no model, so the file says something true. -/
theorem VerifiedFile.sound {F : Form} {text : List Char} (h : VerifiedFile F text) : ¬ F.Satisfiable := by
  obtain ⟨rs, -, h⟩ := h; exact h.sound

theorem accepted_left {strict : Bool} : ∀ {rs ts : List CertRec} {K : Form}, Accepted strict K (rs ++ ts) → Accepted strict K rs
  | [], _, _, _ => trivial
  | _ :: rs, _, _, h => ⟨h.1, accepted_left (rs := rs) h.2⟩

/-- A file that ends anywhere within the text of some lines. -/
theorem cut_text {F : Form} {rs : List CertRec} (hacc : Accepted false F rs) (hwords : ∀ r ∈ rs, ∀ l ∈ r.cls, 1 ≤ l.var)
    (hok : ∀ r ∈ rs.map CertRec.ints, ok r) {cut : List Char} (hcut : cut <+: ((rs.map CertRec.ints).flatMap fun r => recText r ++ ['\n'])) :
    (readProof cut = none ∧ cut.getLast? ≠ some '\n') ∨
      ∃ ls, readProof cut = some ls ∧ ls.map Rec.line <+: rs ∧ Accepted false F (ls.map Rec.line) := by
  rcases readProof_prefix hok hcut with h | ⟨ls, h1, h2⟩
  · exact .inl h
  · have hline : ls.map Rec.line <+: rs := by
      have := h1.map Rec.line
      rwa [lines_ints hwords] at this
    refine .inr ⟨ls, h2, hline, ?_⟩
    obtain ⟨t, ht⟩ := hline
    rw [← ht] at hacc
    exact accepted_left hacc

/-- **C62.** Whenever the run is stopped (killed, or the disk is full), at whatever point of building, of the search or of the inprocessing, and at
whatever byte the file ends, the file is a beginning of a proof: either its last line is incomplete, and does not read as a line, or the
file reads as the first lines that were recorded, and a checker accepts every one of them. Here `full` is what the file would contain
if the queue was written in this moment; it contains `b`, a beginning of this. -/
theorem C62_cut_file {cfg : Cfg} (hc : cfg.enable = true) {F : Form} {db : Cdb} {s : Stk} (h : Visited cfg F db s)
    (hv : s.numVars < 2147483648) (hF : ∀ c ∈ F, ∀ l ∈ c, l.var < 2147483648) :
    ∃ st st' b full, (db.cert.map CertRec.ints).foldlM Store.record Store.new = some st ∧ st.dump = some st' ∧
      st.buffer = some b ∧ st'.buffer = some full ∧ b <+: full ∧
      ∀ cut, cut <+: full →
        (readProof cut = none ∧ cut.getLast? ≠ some '\n') ∨
        ∃ rs, readProof cut = some rs ∧ rs.map Rec.line <+: db.cert ∧ Accepted false F (rs.map Rec.line) := by
  obtain ⟨F', hF', hacc, hw⟩ := h.certOK
  rw [hF'.2 hc] at hacc
  obtain ⟨x, hx⟩ := h.given
  have hwF : ∀ c ∈ F, Word 2147483647 c := fun c hc => ⟨(hx.words c hc).1, fun l hl => ⟨((hx.words c hc).2 l hl).1, Nat.le_of_lt_succ (hF c hc l hl)⟩⟩
  have hwords := accepted_words hacc hwF fun c hc => (hw c hc).mono (by omega)
  have hok : ∀ r ∈ db.cert.map CertRec.ints, ok r := by
    intro r hr
    obtain ⟨r', hr', rfl⟩ := List.mem_map.1 hr
    exact word_ok (by omega) (hwords r' hr')
  obtain ⟨st, e, i⟩ := records_inv _ [] Store.new (by simp) hok ⟨[], [], rfl, rfl, rfl⟩
  rw [List.nil_append] at i
  obtain ⟨st', e', -, hb'⟩ := dump_inv hok i
  obtain ⟨d, q, hd, hb, -⟩ := i
  refine ⟨st, st', _, _, e, e', hb, hb', ?_, fun cut hcut => cut_text hacc (fun r hr l hl => ((hwords r hr).2 l hl).1) hok hcut⟩
  rw [hd, List.flatMap_append]
  exact List.prefix_append _ _

/-- **C62**, when the answer is UNSAT and the file is closed. -/
theorem C62_cut_closed_file {F : Form} {x : Sol} (h : Built F x) (hv : x.s.numVars < 2147483648) {cfg : Cfg} (hc : cfg.enable = true) (p : Pre)
    (os : List Orc) (low : Nat → Bool) (e : (solve cfg p os low x).verdict = .unsat) {text : List Char}
    (ht : fileOf ((solve cfg p os low x).cert.map CertRec.ints) = some (some text)) {cut : List Char} (hcut : cut <+: text) :
    (readProof cut = none ∧ cut.getLast? ≠ some '\n') ∨
      ∃ rs, readProof cut = some rs ∧ rs.map Rec.line <+: (solve cfg p os low x).cert ++ [.add []] ∧ Accepted false F (rs.map Rec.line) := by
  have hs := solve_spec hc (p := p) (os := os) (low := low) h.bok.1
  have hver := C24_certificate_is_verified h hc p os low e
  cases hs' : solve cfg p os low x with
  | unsat db =>
    rw [hs'] at hs hver ht
    obtain ⟨-, -, hw⟩ := hs
    simp only [Ans.cert] at hver ht ⊢
    have hwords := accepted_words hver.1 h.words hw
    have hok : ∀ r ∈ db.cert.map CertRec.ints, ok r := by
      intro r hr
      obtain ⟨r', hr', rfl⟩ := List.mem_map.1 hr
      exact word_ok hv (hwords r' hr')
    obtain ⟨st, e1, i⟩ := records_inv _ [] Store.new (by simp) hok ⟨[], [], rfl, rfl, rfl⟩
    rw [List.nil_append] at i
    obtain ⟨st', e', -, hb'⟩ := dump_inv hok i
    obtain ⟨d, q, hd, hb, -⟩ := i
    have htext : text = (((db.cert ++ [CertRec.add []]).map CertRec.ints).flatMap fun r => recText r ++ ['\n']) := by
      have : fileOf (db.cert.map CertRec.ints) = some (some ((((db.cert.map CertRec.ints).flatMap fun r => recText r ++ ['\n'])) ++ ['0', '\n'])) := by
        simp only [fileOf, e1, Option.bind_some, Store.close, hb, e', Option.map_some, hb']
      rw [this] at ht
      cases ht
      simp [CertRec.ints, recText, litsText]
    rw [htext] at hcut
    refine cut_text (hver.1.snoc (r := CertRec.add []) (.inl hver.2)) (fun r hr l hl => ?_) (fun r hr => ?_) hcut
    · rcases List.mem_append.1 hr with hr | hr
      · exact ((hwords r hr).2 l hl).1
      · simp at hr; subst hr; simp [CertRec.cls] at hl
    · rw [List.map_append] at hr
      rcases List.mem_append.1 hr with hr | hr
      · exact hok r hr
      · simp [CertRec.ints] at hr; subst hr; simp [ok]
  | _ => rw [hs'] at e; simp [Ans.verdict] at e

/-- A conflict in the middle of the search, after 9 clauses were recorded; cut within the second line, and after it. -/
example : ∃ c : Conf, Visited {} (exDeep.map clsOf) c.1 c.2.1 ∧ c.2.1.numVars < 2147483648 ∧ 9 ≤ c.1.cert.length ∧
    ∀ d ∈ exDeep.map clsOf, ∀ l ∈ d, l.var < 2147483648 := by
  have h : exConf.isSome ∧ (exConf.map fun c => decide (c.2.1.numVars < 2147483648 ∧ 9 ≤ c.1.cert.length)) = some true := by decide +kernel
  obtain ⟨c, hc⟩ := Option.isSome_iff_exists.1 h.1
  have h2 := h.2
  rw [hc] at h2
  simp only [Option.map_some, Option.some.injEq, decide_eq_true_eq] at h2
  exact ⟨c, .conflict (.of exDeep_built hc), h2.1, h2.2, by decide +kernel⟩

example : readProof "1 2 0\n-3 4".toList = none ∧ readProof "1 2 0\n-3 45 0\nd".toList = none ∧ readProof "1 2 0\n-3 45 0\nd 1 2 0".toList =
    some [.add [1, 2], .add [-3, 45], .del [1, 2]] := by decide +kernel

/-! ## C63: a contradiction that is found while the solver is built -/

/-- Unit propagation stays within every consistent set that respects the clauses. -/
theorem RUP.no_closed {G : Form} (h : RUP G []) : ∀ D, Cons D → (∀ c ∈ G, Resp D c) → False := by
  intro D hD hr
  have up : ∀ l, UP G (fun l => l.neg ∈ ([] : Cls)) l → D l := by
    intro l hl
    induction hl with
    | assume h => simp at h
    | unit hc hl _ ih => exact (hr _ hc).1 _ hl ih
  rcases h with ⟨d, hd, h⟩ | ⟨l, h, h'⟩
  · obtain ⟨y, hy, hn⟩ := (hr d hd).2
    exact hn (up _ (h y hy))
  · exact hD _ (up _ h) (up _ h')

theorem RUP.mono {G G' : Form} (h : RUP G []) (hs : ∀ c ∈ G, c ∈ G') : RUP G' [] :=
  rup_of_no_closed fun D hD hr _ => h.no_closed D hD fun c hc => hr c (hs c hc)

/-- If the clauses contradict each other by unit propagation, every list of additions that are clauses derived by it is a proof. -/
theorem verified_of_rup {strict : Bool} {F : Form} (h : RUP F []) : ∀ {cs : List Cls}, Verified strict F (cs.map .add)
  | cs => by
    have key : ∀ {cs : List Cls} {K : Form}, RUP K [] → Accepted strict K (cs.map .add) := by
      intro cs
      induction cs with
      | nil => intro K _; trivial
      | cons c cs ih =>
        intro K hK
        refine ⟨.inl (rup_of_no_closed fun D hD hr _ => hK.no_closed D hD hr), ih (hK.mono fun d hd => List.mem_cons_of_mem _ hd)⟩
    exact ⟨key h, h.mono fun d hd => listedAll_adds d |>.2 (.inr hd)⟩

theorem refuted_by_units {F : Form} {x : Sol} (h : Built F x) {c : Cls} {E : List Cls} (hE : ∀ d ∈ E, d ∈ adds x.db.cert ∨ d = c)
    (hr : Refutation (F ++ [c]) E) : RUP (F ++ [c]) [] := by
  rcases hr E [] [] rfl with hr | ⟨p, hp, -⟩
  · refine rup_of_no_closed fun D hD hd _ => hr.no_closed D hD fun d hdm => ?_
    rcases List.mem_append.1 hdm with hdm | hdm
    · exact hd d hdm
    · rcases hE d hdm with h1 | rfl
      · exact h.bok.1.ups D hD (fun a ha => hd a (by simp [ha])) d h1
      · exact hd d (by simp)
  · simp at hp

/-- What the certificate file contains when building stops. -/
theorem build_file {n : Nat} (hn : n < 2147483648) {G : Form} (hr : RUP G []) {cs : List Cls} (hw : ∀ c ∈ cs, Word n c) :
    ∃ st b, ((cs.map CertRec.add).map CertRec.ints).foldlM Store.record Store.new = some st ∧ st.buffer = some b ∧ VerifiedFile G b := by
  have hwords : ∀ r ∈ cs.map CertRec.add, Word n r.cls := by
    intro r hr
    obtain ⟨d, hd, rfl⟩ := List.mem_map.1 hr
    exact hw d hd
  have hok : ∀ r ∈ (cs.map CertRec.add).map CertRec.ints, ok r := by
    intro r hr
    obtain ⟨r', hr', rfl⟩ := List.mem_map.1 hr
    exact word_ok hn (hwords r' hr')
  obtain ⟨st, e, i⟩ := records_inv _ [] Store.new (by simp) hok ⟨[], [], rfl, rfl, rfl⟩
  rw [List.nil_append] at i
  obtain ⟨d, q, hd, hb', -⟩ := i
  refine ⟨st, _, e, hb', d, readProof_text d fun r hr => hok r (by rw [hd]; simp [hr]), ?_⟩
  have hdl : ∃ cs : List Cls, d.map Rec.line = cs.map .add := by
    have h1 : (d ++ q).map Rec.line = cs.map .add := by
      rw [← hd, lines_ints fun r hr l hl => ((hwords r hr).2 l hl).1]
    rw [List.map_append] at h1
    obtain ⟨a, b, -, h2, -⟩ := List.append_eq_map_iff.1 h1
    exact ⟨a, h2.symm⟩
  obtain ⟨cs', hcs⟩ := hdl
  rw [hcs]
  exact verified_of_rup hr

/-- What was written to the certificate file when the solver `y` is given up, is a proof for `G`. -/
def LeftProof (G : Form) (y : Sol) : Prop :=
  ∃ st b, (y.db.cert.map CertRec.ints).foldlM Store.record Store.new = some st ∧ st.buffer = some b ∧ VerifiedFile G b

/-- **C63.** When building the solver ends in a contradiction (a clause or an assignment is rejected because it contradicts the given ones), the program
reports UNSAT without writing or closing the certificate. The file, which holds what was flushed while building, possibly nothing, is
nevertheless a proof for the given clauses together with the rejected one. -/
theorem C63_contradiction_while_building {F : Form} {x y : Sol} (h : Built F x) (hv : x.s.numVars < 2147483648) :
    (∀ v, x.addClause v = some (y, some .emptyClause) → LeftProof (F ++ [clsOf v]) y) ∧
    (∀ i, x.addAssignment i = (y, some .rootConflict) → LeftProof (F ++ [clsOf [i]]) y) ∧
    (∀ c, (∀ i ∈ c, i ≠ 0 ∧ i.natAbs ≤ x.s.numVars) → x.addUnchecked (clsOf c) = some (y, .emptyClause) → LeftProof (F ++ [clsOf c]) y) := by
  have hb := h.bok.1
  have left : ∀ c, RUP (F ++ [c]) [] → LeftProof (F ++ [c]) x := by
    intro c hr
    have := build_file hv hr (cs := adds x.db.cert) hb.dom.ct
    rw [← hb.only] at this
    exact this
  refine ⟨fun v e => ?_, fun i e => ?_, fun c hc e => ?_⟩
  · obtain ⟨y', e', he, -, -, -, -, h2, h3⟩ := addClause_spec hb v
    rw [e] at he
    simp only [Option.some.injEq, Prod.mk.injEq] at he
    obtain ⟨rfl, rfl⟩ := he
    rw [h2 (by simp)]
    rcases h3 with h3 | h3 | ⟨-, h3⟩
    · simp at h3
    · simp at h3
    · exact left _ (refuted_by_units h (fun d hd => .inl hd) h3)
  · obtain ⟨-, -, hbad, -, -, h3⟩ := addAssignment_spec hb i
    rw [e] at hbad h3
    rcases h3 with h3 | h3 | ⟨-, h3⟩
    · simp at h3
    · simp at h3
    · have hcert : y.db.cert = x.db.cert ++ [.add [Lit.ofInt i]] := by
        unfold Sol.addAssignment at e
        split at e
        · simp at e
        · simp only [] at e
          split at e
          · split at e
            · simp at e
            · simp only [Prod.mk.injEq, and_true] at e; rw [← e]; rfl
          · simp at e
          · simp only [Prod.mk.injEq, and_true] at e; rw [← e]; rfl
      have hrg := ofInt_range (x := x) (v := [i]) (by simpa using hbad) (Lit.ofInt i) (by simp [clsOf])
      have hr : RUP (F ++ [[Lit.ofInt i]]) [] := by
        refine refuted_by_units h (fun d hd => ?_) h3
        rw [hcert] at hd
        simpa using hd
      have := build_file hv hr (cs := adds x.db.cert ++ [[Lit.ofInt i]]) fun c hc => by
        rcases List.mem_append.1 hc with hc | hc
        · exact hb.dom.ct c hc
        · simp at hc; subst hc; exact ⟨by simp, fun l hl => by simp at hl; subst hl; exact hrg⟩
      rw [List.map_append, ← hb.only] at this
      unfold LeftProof
      rw [hcert]
      exact this
  · have hrg : ∀ l ∈ clsOf c, 1 ≤ l.var ∧ l.var ≤ x.s.numVars := by
      intro l hl
      obtain ⟨i, hi, rfl⟩ := List.mem_map.1 hl
      have := hc i hi
      unfold Lit.ofInt
      simp only []
      omega
    obtain ⟨y', rf, he, -, -, -, h4⟩ := addUnchecked_spec hb hrg
    rw [e] at he
    simp only [Option.some.injEq, Prod.mk.injEq] at he
    obtain ⟨rfl, rfl⟩ := he
    rw [(h4 rfl).1]
    rw [(h4 rfl).1] at h4
    exact left _ (refuted_by_units h (fun d hd => .inl hd) (h4 rfl).2)

/-- (1 ∨ 3), ¬1, ¬2: the clause (1 ∨ 2) and the assignment 2 are rejected. -/
example : Built ([[1, 3], [-1], [-2]].map clsOf) (exSolver 3 [[1, 3], [-1], [-2]]) ∧
    (((exSolver 3 [[1, 3], [-1], [-2]]).addClause [1, 2]).map (·.2)) = some (some .emptyClause) ∧
    ((exSolver 3 [[1, 3], [-1], [-2]]).addAssignment 2).2 = some .rootConflict ∧
    (((exSolver 3 [[1, 3], [-1], [-2]]).addUnchecked (clsOf [1, 2])).map (·.2)) = some .emptyClause :=
  ⟨exBuilt (by decide +kernel), by decide +kernel, by decide +kernel, by decide +kernel⟩

end Splr
