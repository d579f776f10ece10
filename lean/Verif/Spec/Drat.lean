import Verif.Spec.Sem
import Mathlib.Data.List.Induction
import Mathlib.Tactic.ByContra
import Mathlib.Tactic.Push
/-!
# Clausal proofs (specification)

Unit propagation, reverse unit propagation (RUP), resolution asymmetric tautologies (RAT), and refutations made of such
steps: the DRAT proof system. Independent of the solver. `Refutation.sound` shows that a formula with a refutation has no
model. The second part adds deletions, as a checker of proof files sees them.
-/
namespace Splr

/-- The literals derived from the formula `G` and the assumptions `A` by unit propagation. -/
inductive UP (G : Form) (A : Lit → Prop) : Lit → Prop
  | assume {l : Lit} (h : A l) : UP G A l
  | unit {c : Cls} {l : Lit} (hc : c ∈ G) (hl : l ∈ c) (h : ∀ m ∈ c, m ≠ l → UP G A m.neg) : UP G A l

/-- Unit propagation ends in a conflict: a clause all of whose literals are false, or two complementary literals. -/
def UPConflict (G : Form) (A : Lit → Prop) : Prop :=
  (∃ c ∈ G, ∀ l ∈ c, UP G A l.neg) ∨ ∃ l, UP G A l ∧ UP G A l.neg

/-- `c` has the reverse unit propagation property: assuming all its literals false, unit propagation runs into a conflict. -/
def RUP (G : Form) (c : Cls) : Prop := UPConflict G (fun l => l.neg ∈ c)

/-- A clause with two complementary literals. -/
def Tautology (c : Cls) : Prop := ∃ l ∈ c, l.neg ∈ c

/-- `c` is RAT on its literal `p`: its resolvents on `p` with the clauses of `G` are RUP (tautologies in `G` do not count). -/
def RAT (G : Form) (c : Cls) (p : Lit) : Prop :=
  p ∈ c ∧ ∀ d ∈ G, ¬ Tautology d → p.neg ∈ d → RUP G (c ++ d.filter (· ≠ p.neg))

/-- A sequence of clauses, each justified by the formula and the clauses before it. -/
def Derivation (F : Form) (steps : List Cls) : Prop :=
  ∀ pre c post, steps = pre ++ c :: post → RUP (F ++ pre) c ∨ ∃ p, RAT (F ++ pre) c p

/-- A derivation of the empty clause. -/
def Refutation (F : Form) (steps : List Cls) : Prop := Derivation F (steps ++ [[]])

theorem UP.sound {G : Form} {A : Lit → Prop} {a : Asg} (hG : Form.sat a G) (hA : ∀ l, A l → l.sat a) {l : Lit}
    (h : UP G A l) : l.sat a := by
  induction h with
  | assume h => exact hA _ h
  | @unit c l hc hl _ ih =>
    obtain ⟨m, hm, hs⟩ := hG c hc
    by_cases e : m = l
    · rw [← e]; exact hs
    · have := ih m hm e; simp at this; exact absurd hs this

theorem UPConflict.sound {G : Form} {A : Lit → Prop} {a : Asg} (hG : Form.sat a G) (hA : ∀ l, A l → l.sat a)
    (h : UPConflict G A) : False := by
  rcases h with ⟨c, hc, h⟩ | ⟨l, h1, h2⟩
  · obtain ⟨m, hm, hs⟩ := hG c hc
    have := (h m hm).sound hG hA; simp at this; exact this hs
  · have h1 := h1.sound hG hA; have h2 := h2.sound hG hA; simp at h2; exact h2 h1

/-- RUP clauses are implied. -/
theorem RUP.sound {G : Form} {c : Cls} (h : RUP G c) : G.Entails c := by
  intro a hG
  by_contra hc
  refine UPConflict.sound hG (fun l hl => ?_) h
  by_contra hn
  exact hc ⟨l.neg, hl, by simpa using hn⟩

/-- Adding a RAT clause preserves satisfiability. -/
theorem RAT.sound {G : Form} {c : Cls} {p : Lit} (h : RAT G c p) (hs : G.Satisfiable) : (G ++ [c]).Satisfiable := by
  obtain ⟨a, ha⟩ := hs
  by_cases hc : Cls.sat a c
  · refine ⟨a, fun d hd => ?_⟩
    rcases List.mem_append.1 hd with hd | hd
    · exact ha d hd
    · simp at hd; subst hd; exact hc
  -- flip `p`
  let a' : Asg := fun v => if v = p.var then p.pos else a v
  have hp : p.sat a' := by simp [Lit.sat, a']
  have hother : ∀ l : Lit, l.sat a → l ≠ p.neg → l.sat a' := by
    intro l hl hne
    by_cases e : l.var = p.var
    · rcases Lit.eq_or_eq_neg_of_var e with rfl | rfl
      · exact hp
      · exact absurd rfl hne
    · unfold Lit.sat at *; simp only [a', e, if_false]; exact hl
  refine ⟨a', fun d hd => ?_⟩
  rcases List.mem_append.1 hd with hd | hd
  · by_cases ht : Tautology d
    · obtain ⟨l, h1, h2⟩ := ht
      by_cases hl : l.sat a'
      · exact ⟨l, h1, hl⟩
      · exact ⟨l.neg, h2, by simpa using hl⟩
    by_cases hn : p.neg ∈ d
    · obtain ⟨l, hl, hls⟩ := (h.2 d hd ht hn).sound a ha
      rcases List.mem_append.1 hl with hl | hl
      · exact absurd ⟨l, hl, hls⟩ hc
      · simp at hl; exact ⟨l, hl.1, hother l hls hl.2⟩
    · obtain ⟨l, hl, hls⟩ := ha d hd
      exact ⟨l, hl, hother l hls (by rintro rfl; exact hn hl)⟩
  · simp at hd; subst hd; exact ⟨p, h.1, hp⟩

theorem Derivation.sat {F : Form} : ∀ {steps : List Cls}, Derivation F steps → F.Satisfiable → (F ++ steps).Satisfiable := by
  intro steps
  induction steps using List.reverseRecOn with
  | nil => intro _ h; simpa using h
  | append_singleton steps c ih =>
    intro h hs
    have h1 : (F ++ steps).Satisfiable := ih (fun pre d post e => h pre d (post ++ [c]) (by rw [e]; simp)) hs
    rw [← List.append_assoc]
    rcases h steps c [] rfl with hr | ⟨p, hr⟩
    · obtain ⟨a, ha⟩ := h1
      refine ⟨a, fun d hd => ?_⟩
      rcases List.mem_append.1 hd with hd | hd
      · exact ha d hd
      · simp at hd; subst hd; exact hr.sound a ha
    · exact hr.sound h1

/-- A formula with a refutation is unsatisfiable. -/
theorem Refutation.sound {F : Form} {steps : List Cls} (h : Refutation F steps) : ¬ F.Satisfiable := by
  intro hs
  obtain ⟨a, ha⟩ := Derivation.sat h hs
  obtain ⟨l, hl, -⟩ := ha [] (by simp)
  simp at hl

/-! ## sets closed under unit propagation -/

/-- `D` respects `c`: if all literals but one are false in `D` then the last one is in `D`, and not all are false. -/
def Resp (D : Lit → Prop) (c : Cls) : Prop :=
  (∀ x ∈ c, (∀ y ∈ c, y ≠ x → D y.neg) → D x) ∧ ∃ y ∈ c, ¬ D y.neg

/-- No two complementary literals. -/
def Cons (D : Lit → Prop) : Prop := ∀ l, D l → ¬ D l.neg

/-- If no set of literals that is consistent, respects all clauses and falsifies `c` exists then `c` is RUP. -/
theorem rup_of_no_closed {G : Form} {c : Cls}
    (h : ∀ D, Cons D → (∀ d ∈ G, Resp D d) → (∀ x ∈ c, D x.neg) → False) : RUP G c := by
  by_contra hn
  unfold RUP UPConflict at hn
  push Not at hn
  refine h (UP G fun l => l.neg ∈ c) (fun l h1 h2 => hn.2 l h1 h2) (fun d hd => ⟨fun x hx hy => .unit hd hx hy, ?_⟩)
    (fun x hx => .assume (by simpa using hx))
  obtain ⟨l, hl, hnl⟩ := hn.1 d hd
  exact ⟨l, hl, hnl⟩

/-! ## deletions -/

/-- A line of a proof: a clause is added or deleted. -/
inductive CertRec where
  | add (c : Cls)
  | del (c : Cls)
deriving DecidableEq, Repr

/-- Delete a clause from the listed ones: one that has the same literals, in any order. -/
def dropListed (K : Form) (c : Cls) : Form := K.eraseP fun d => d.isPerm c

/-- `c` is a unit clause under the literals that unit propagation derives from `K`: one of its literals is derived, and all
others are derived to be false. -/
def UnitUnder (K : Form) (c : Cls) : Prop :=
  ∃ l ∈ c, UP K (fun _ => False) l ∧ ∀ m ∈ c, m ≠ l → UP K (fun _ => False) m.neg

open Classical in
/-- The listed clauses after a line. A checker keeps unit clauses: `drat-trim` ignores the deletion of a clause that is a unit
clause under the literals derived so far (operational DRAT). With `strict`, it does not. -/
noncomputable def listed (strict : Bool) (K : Form) : CertRec → Form
  | .add c => c :: K
  | .del c => if strict = false ∧ UnitUnder K c then K else dropListed K c

/-- The listed clauses after some lines. -/
noncomputable def listedAll (strict : Bool) (K : Form) (rs : List CertRec) : Form := rs.foldl (listed strict) K

/-- A line is accepted: an added clause is RUP, or RAT on its first literal, with respect to the listed clauses; a deleted clause
is listed. -/
def LineOK (K : Form) : CertRec → Prop
  | .add c => RUP K c ∨ ∃ p, c.head? = some p ∧ RAT K c p
  | .del c => ∃ d ∈ K, d.Perm c

/-- All lines are accepted, one after another. -/
def Accepted (strict : Bool) (K : Form) : List CertRec → Prop
  | [] => True
  | r :: rs => LineOK K r ∧ Accepted strict (listed strict K r) rs

/-- The checker accepts the proof of unsatisfiability: it accepts all lines, and unit propagation on the clauses that are listed
at the end runs into a conflict. -/
def Verified (strict : Bool) (F : Form) (rs : List CertRec) : Prop := Accepted strict F rs ∧ RUP (listedAll strict F rs) []

theorem mem_of_dropListed {K : Form} {c d : Cls} (h : d ∈ dropListed K c) : d ∈ K := List.mem_of_mem_eraseP h

theorem mem_listed {strict : Bool} {K : Form} {r : CertRec} {d : Cls} (h : d ∈ listed strict K r) : d ∈ K ∨ r = .add d := by
  cases r with
  | add c => simp only [listed, List.mem_cons] at h; rcases h with rfl | h <;> simp [*]
  | del c =>
    simp only [listed] at h
    split at h
    · exact .inl h
    · exact .inl (mem_of_dropListed h)

/-- An accepted line keeps satisfiability. -/
theorem LineOK.sat {strict : Bool} {K : Form} {r : CertRec} (h : LineOK K r) (hs : K.Satisfiable) : (listed strict K r).Satisfiable := by
  cases r with
  | add c =>
    have key : Form.Satisfiable (K ++ [c]) → Form.Satisfiable (c :: K) := fun ⟨a, ha⟩ => ⟨a, fun d hd => ha d (by simp at hd ⊢; tauto)⟩
    rcases h with h | ⟨p, -, h⟩
    · obtain ⟨a, ha⟩ := hs
      refine ⟨a, fun d hd => ?_⟩
      rcases List.mem_cons.1 hd with rfl | hd
      · exact h.sound a ha
      · exact ha d hd
    · exact key (h.sound hs)
  | del c =>
    obtain ⟨a, ha⟩ := hs
    exact ⟨a, fun d hd => by rcases mem_listed hd with h | h; exacts [ha d h, by cases h]⟩

theorem Accepted.sat {strict : Bool} : ∀ {rs : List CertRec} {K : Form}, Accepted strict K rs → K.Satisfiable → (listedAll strict K rs).Satisfiable
  | [], _, _, hs => hs
  | r :: rs, K, h, hs => Accepted.sat (rs := rs) (K := listed strict K r) h.2 (h.1.sat hs)

/-- A formula with a verified proof is unsatisfiable. -/
theorem Verified.sound {strict : Bool} {F : Form} {rs : List CertRec} (h : Verified strict F rs) : ¬ F.Satisfiable := by
  intro hs
  obtain ⟨a, ha⟩ := h.1.sat hs
  obtain ⟨l, hl, -⟩ := h.2.sound a ha
  simp at hl

end Splr
