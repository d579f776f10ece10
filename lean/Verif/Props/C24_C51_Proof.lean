import Verif.Props.C01_C02_Solve
/-!
# C24, C51: the certificate as a checker reads it

`Verified strict F rs` (Spec/Drat.lean) is the run of a DRAT checker over the lines `rs`, additions and deletions in their order.
-/
namespace Splr

/-- The lines written to the certificate when `solve` answers UNSAT. -/
def Ans.cert : Ans → List CertRec
  | .unsat db => db.cert
  | _ => []

/-- **C24.** When `solve` answers UNSAT, the certificate is a DRAT proof: line by line, each added clause is RUP or RAT on its first literal
with respect to the clauses that are listed at this point, each deleted clause is listed (where, as in `drat-trim`, deleting a
clause that is unit under the literals derived so far has no effect), and unit propagation on the clauses listed at the end runs into a
conflict. -/
theorem C24_certificate_is_verified {F : Form} {x : Sol} (h : Built F x) {cfg : Cfg} (hc : cfg.enable = true) (p : Pre) (os : List Orc)
    (low : Nat → Bool) (e : (solve cfg p os low x).verdict = .unsat) : Verified false F (solve cfg p os low x).cert := by
  have := solve_spec hc (p := p) (os := os) (low := low) h.bok.1
  cases hs : solve cfg p os low x with
  | unsat db => rw [hs] at this; exact this.2.1
  | _ => rw [hs] at e; simp [Ans.verdict] at e

/-- Conflicts, learnt clauses, shortened clauses and deletions. -/
example : Built (exUnsat.map clsOf) (exSolver 3 exUnsat) ∧
    (solve {} plainPre (List.replicate 9 stageOrc) noLow (exSolver 3 exUnsat)).verdict = .unsat ∧
    (∃ c, .add c ∈ (solve {} plainPre (List.replicate 9 stageOrc) noLow (exSolver 3 exUnsat)).cert) ∧
    (∃ c, .del c ∈ (solve {} plainPre (List.replicate 9 stageOrc) noLow (exSolver 3 exUnsat)).cert) := by
  refine ⟨exBuilt (by decide +kernel), by decide +kernel, ?_, ?_⟩
  · exact ⟨(((solve {} plainPre (List.replicate 9 stageOrc) noLow (exSolver 3 exUnsat)).cert.filterMap fun | .add c => some c | _ => none).headD []),
      by decide +kernel⟩
  · exact ⟨(((solve {} plainPre (List.replicate 9 stageOrc) noLow (exSolver 3 exUnsat)).cert.filterMap fun | .del c => some c | _ => none).headD []),
      by decide +kernel⟩

/-! ## C51: a checker that executes all deletions -/

/-- **C51, partial.** The added clauses alone are a proof, for any checker that ignores deletions. Missing: a checker that
executes all deletions, see `C51_violated`. -/
theorem C51_additions_alone_partial {F : Form} {x : Sol} (h : Built F x) {cfg : Cfg} (hc : cfg.enable = true) (p : Pre) (os : List Orc)
    (low : Nat → Bool) (e : (solve cfg p os low x).verdict = .unsat) :
    Refutation F ((solve cfg p os low x).cert.filterMap fun | .add c => some c | .del _ => none) := by
  have := additions_refute h hc p os low e
  cases hs : solve cfg p os low x with
  | unsat db => rw [hs] at this; exact this
  | _ => rw [hs] at e; simp [Ans.verdict] at e

/-- `listed true`, computably. -/
def listedS (K : Form) : CertRec → Form
  | .add c => c :: K
  | .del c => dropListed K c

theorem listedAll_strict (K : Form) (rs : List CertRec) : listedAll true K rs = rs.foldl listedS K := by
  have : listed true = listedS := by
    funext K r
    cases r <;> simp [listed, listedS]
  rw [listedAll, this]

theorem Accepted.line {strict : Bool} : ∀ {rs : List CertRec} {K : Form} {i : Nat} {r : CertRec},
    Accepted strict K rs → rs[i]? = some r → LineOK (listedAll strict K (rs.take i)) r
  | [], _, _, _, _, e => by simp at e
  | _ :: _, _, 0, _, h, e => by simp at e; subst e; exact h.1
  | _ :: rs, K, i + 1, r, h, e => Accepted.line (rs := rs) (i := i) h.2 (by simpa using e)

/-- A consistent set of literals that respects all clauses and falsifies `c` shows that `c` is not RUP. -/
theorem not_rup {G : Form} {c : Cls} {D : List Lit} (h1 : ∀ l ∈ D, l.neg ∉ D) (h2 : ∀ x ∈ c, x.neg ∈ D)
    (h3 : ∀ d ∈ G, (∀ x ∈ d, (∀ y ∈ d, y ≠ x → y.neg ∈ D) → x ∈ D) ∧ ∃ y ∈ d, y.neg ∉ D) : ¬ RUP G c := by
  have up : ∀ l, UP G (fun l => l.neg ∈ c) l → l ∈ D := by
    intro l hl
    induction hl with
    | assume h => simpa using h2 _ h
    | unit hc hl _ ih => exact (h3 _ hc).1 _ hl ih
  rintro (⟨d, hd, h⟩ | ⟨l, h, h'⟩)
  · obtain ⟨y, hy, hn⟩ := (h3 d hd).2
    exact hn (up _ (h y hy))
  · exact h1 _ (up _ h) (up _ h')

/-- 12 variables; see `C51_violated`. -/
def exDel : List (List Int) :=
  [[-1, 2, 3, 4], [-1, 2, 3, -4], [-1, 2, -3, 4], [-1, 2, -3, -4],
   [-2, 5, 6, 7, 8], [-2, 5, 6, 7, -8], [-2, 5, 6, -7, 8], [-2, 5, 6, -7, -8],
   [1, 9], [1, -9], [10, 11], [10, -11], [-10, 11], [-10, -11], [-5, 12], [-6, 12], [-12, 5, 6]]

/-- Decide `v`. -/
def pickOrc (v : Nat) (ph : Bool) : Orc := { plainOrc with pick := fun _ => v, phase := fun _ => ph }

/-- The end of a stage at which nothing is vivified, deleted or eliminated. -/
def quietStage : StageOrc := { timeout := false, cycle := false, segment := false, victims := [], targets := [], cmds := [], oom := false }

/-- Learn (3 ∨ 2 ∨ ¬1) and (2 ∨ ¬1), restart, learn (6 ∨ 5 ∨ ¬2), restart, learn 1 (so 2 is implied), and end a stage. -/
def exDelOrc : List Orc :=
  [pickOrc 1 true, pickOrc 2 false, pickOrc 3 false, { pickOrc 0 true with restart := true },
   pickOrc 2 true, pickOrc 5 false, pickOrc 6 false, pickOrc 7 false,
   { pickOrc 0 true with stage := some { quietStage with cycle := true, segment := true, cmds := [.subsume 21 20] } },
   { pickOrc 1 false with stage := some quietStage }, pickOrc 10 true, pickOrc 11 true]

/-- The line that is rejected. -/
def exDelLine : CertRec := .add (clsOf [6, 5])

/-- The certificate of the run. -/
def exDelCert : List CertRec := (solve {} plainPre exDelOrc noLow (exSolver 12 exDel)).cert

theorem exDel_rejected : ¬ Verified true (exDel.map clsOf) exDelCert := by
  have hi : exDelCert[exDelCert.findIdx (· == exDelLine)]? = some exDelLine := by decide +kernel
  have hD : ∀ d ∈ (exDelCert.take (exDelCert.findIdx (· == exDelLine))).foldl listedS (exDel.map clsOf),
      (∀ x ∈ d, (∀ y ∈ d, y ≠ x → y.neg ∈ clsOf [1, -6, -5, -12, -2]) → x ∈ clsOf [1, -6, -5, -12, -2]) ∧
        ∃ y ∈ d, y.neg ∉ clsOf [1, -6, -5, -12, -2] := by
    decide +kernel
  have hm : clsOf [-6, 12] ∈ (exDelCert.take (exDelCert.findIdx (· == exDelLine))).foldl listedS (exDel.map clsOf) := by decide +kernel
  generalize hn : exDelCert.findIdx (· == exDelLine) = n at *
  clear hn
  generalize exDelCert = rs at *
  generalize exDel.map clsOf = F at *
  intro h
  have h := h.1.line hi
  rw [listedAll_strict] at h
  rcases h with h | ⟨p, hp, h⟩
  · exact not_rup (by decide +kernel) (by decide +kernel) hD h
  · cases hp
    have := h.2 (clsOf [-6, 12]) hm (by unfold Tautology; decide +kernel) (by decide +kernel)
    exact not_rup (by decide +kernel) (by decide +kernel) hD this

/-- **C51 is violated.** The literal 2 is implied by (2 ∨ ¬1) and the learnt unit 1, but literals implied at level 0 are not written to the
certificate. At the end of a stage the satisfied clauses go first: the deletion of (2 ∨ ¬1) is recorded, after which the checker cannot
derive 2 any more; then (6 ∨ 5 ∨ ¬2) is shortened to (6 ∨ 5), which is neither RUP nor RAT. -/
theorem C51_violated : ∃ (F : Form) (x : Sol) (cfg : Cfg) (p : Pre) (os : List Orc) (low : Nat → Bool), Built F x ∧ cfg.enable = true ∧
    (solve cfg p os low x).verdict = .unsat ∧ ¬ Verified true F (solve cfg p os low x).cert :=
  ⟨exDel.map clsOf, exSolver 12 exDel, {}, plainPre, exDelOrc, noLow, exBuilt (by decide +kernel), rfl, by decide +kernel, by
    have h := exDel_rejected
    unfold exDelCert at h
    exact h⟩

end Splr
