import Verif.Lemmas.ReachSpec
import Verif.Lemmas.Torn
import Verif.Model.CertFile
import Verif.Spec.ProofFile
/-! # The certificate of a run as the lines of a file -/
namespace Splr

theorem Lit.ofInt_toInt {l : Lit} (h : 1 ≤ l.var) : Lit.ofInt l.toInt = l := by
  obtain ⟨v, p⟩ := l
  have h : 1 ≤ v := h
  unfold Lit.toInt Lit.ofInt
  cases p <;> simp ; all_goals omega

theorem clsOf_toInt {c : Cls} (h : ∀ l ∈ c, 1 ≤ l.var) : clsOf (c.map Lit.toInt) = c := by
  unfold clsOf
  rw [List.map_map]
  conv_rhs => rw [← List.map_id c]
  exact List.map_congr_left fun l hl => Lit.ofInt_toInt (h l hl)

/-- The literals of a record. -/
def CertRec.cls : CertRec → Cls
  | .add c => c
  | .del c => c

theorem line_ints {r : CertRec} (h : ∀ l ∈ r.cls, 1 ≤ l.var) : r.ints.line = r := by
  cases r with
  | add c => simp only [CertRec.ints, Cert.Rec.line]; rw [clsOf_toInt (c := c) h]
  | del c => simp only [CertRec.ints, Cert.Rec.line]; rw [clsOf_toInt (c := c) h]

theorem lines_ints {rs : List CertRec} (h : ∀ r ∈ rs, ∀ l ∈ r.cls, 1 ≤ l.var) : (rs.map CertRec.ints).map Cert.Rec.line = rs := by
  rw [List.map_map]
  conv_rhs => rw [← List.map_id rs]
  exact List.map_congr_left fun r hr => line_ints (h r hr)

/-- The words of an accepted certificate: deleted clauses are listed, so they are words, too. -/
theorem accepted_words {strict : Bool} {n : Nat} : ∀ {rs : List CertRec} {K : Form}, Accepted strict K rs → (∀ c ∈ K, Word n c) → (∀ c ∈ adds rs, Word n c) →
    ∀ r ∈ rs, Word n r.cls
  | [], _, _, _, _ => by simp
  | r :: rs, K, h, hk, ha => by
    have hr : Word n r.cls := by
      cases r with
      | add c => exact ha c (by simp [adds])
      | del c =>
        obtain ⟨d, hd, hp⟩ := h.1
        obtain ⟨w1, w2⟩ := hk d hd
        exact ⟨fun e => w1 (by have : c = [] := e; subst this; exact hp.eq_nil), fun l hl => w2 l (hp.mem_iff.2 hl)⟩
    intro r' hr'
    rcases List.mem_cons.1 hr' with rfl | hr'
    · exact hr
    · refine accepted_words (rs := rs) h.2 (fun c hc => ?_) (fun c hc => ha c ?_) r' hr'
      · rcases mem_listed hc with h | rfl
        · exact hk c h
        · exact hr
      · have : adds (r :: rs) = adds [r] ++ adds rs := by rw [← adds_append]; rfl
        rw [this]; exact List.mem_append_right _ hc

theorem word_ok {n : Nat} (hn : n < 2147483648) {r : CertRec} (h : Word n r.cls) : Cert.ok r.ints := by
  have key : ∀ i ∈ r.cls.map Lit.toInt, i ≠ 0 ∧ Text.IsI32 i := by
    intro i hi
    obtain ⟨l, hl, rfl⟩ := List.mem_map.1 hi
    have := h.2 l hl
    unfold Lit.toInt Text.IsI32
    split <;> omega
  cases r with
  | add c => exact key
  | del c => exact ⟨by have := h.1; simpa [CertRec.cls] using this, key⟩

theorem Word.mono {n m : Nat} (h : n ≤ m) {c : Cls} (hc : Word n c) : Word m c := ⟨hc.1, fun l hl => ⟨(hc.2 l hl).1, (hc.2 l hl).2.trans h⟩⟩

/-- No given clause is empty. -/
theorem BOK.nonempty {F : Form} {x : Sol} (h : BOK F x) : ∀ c ∈ F, c ≠ [] := by
  rintro c hc rfl
  rcases h.cov [] (by simp [hc]) with ⟨l, hl, -⟩ | ⟨i, hi, hs⟩ | ⟨l, hl, -⟩
  · simp at hl
  · obtain ⟨l, hl⟩ := List.exists_mem_of_ne_nil _ hi
    exact absurd (hs l hl) (by simp)
  · simp at hl

theorem Built.words {F : Form} {x : Sol} (h : Built F x) : ∀ c ∈ F, Word x.s.numVars c :=
  fun c hc => ⟨h.bok.1.nonempty c hc, fun l hl => h.bok.2 c hc l hl⟩

theorem Head.given {cfg : Cfg} {F : Form} {x : Sol} (h : Head cfg F x) : ∃ y, Built F y := by
  induction h with
  | start h _ => exact ⟨_, h⟩
  | step _ _ _ ih => exact ih

theorem Inner.given {cfg : Cfg} {F : Form} {d : DS} {e : Option El} (h : Inner cfg F d e) : ∃ y, Built F y := by
  induction h with
  | built h => exact ⟨_, h⟩
  | restart h => exact h.given
  | pure h => exact ⟨_, h⟩
  | _ => assumption

theorem Decided.given {cfg : Cfg} {F : Form} {db : Cdb} {s : Stk} (h : Decided cfg F db s) : ∃ y, Built F y := by
  obtain ⟨h, -, -⟩ := h; exact h.given

theorem Propagating.given {cfg : Cfg} {F : Form} {db : Cdb} {s : Stk} (h : Propagating cfg F db s) : ∃ y, Built F y := by
  induction h with
  | start h => exact h.given
  | _ => assumption

theorem Probe.given {cfg : Cfg} {F : Form} {db : Cdb} {s : Stk} (h : Probe cfg F db s) : ∃ y, Built F y := by
  induction h with
  | start h => exact h.given
  | _ => assumption

theorem Visited.given {cfg : Cfg} {F : Form} {db : Cdb} {s : Stk} (h : Visited cfg F db s) : ∃ y, Built F y := by
  cases h with
  | head h => exact h.given
  | decided h => exact h.given
  | propagating h => exact h.given
  | propagated h => exact h.given
  | conflict h => obtain ⟨h, -⟩ := h; exact h.given
  | handled h => obtain ⟨h, -⟩ := h; exact h.given
  | inner h => exact h.given
  | probe h => exact h.given

/-- The certificate of a state: accepted so far, over the variables. -/
def CertOK (cfg : Cfg) (F : Form) (db : Cdb) (s : Stk) : Prop :=
  ∃ F', Sup cfg F F' ∧ Accepted false F' db.cert ∧ ∀ c ∈ adds db.cert, Word s.numVars c

theorem CertOK.of_glob {cfg : Cfg} {F F' : Form} {db : Cdb} {s : Stk} {recs : List Rec} (hF : Sup cfg F F') (g : Glob F' db s recs) : CertOK cfg F db s :=
  ⟨F', hF, g.chk.acc, g.dom.ct⟩

theorem Decided.certOK {cfg : Cfg} {F : Form} {db : Cdb} {s : Stk} (h : Decided cfg F db s) : CertOK cfg F db s := by
  obtain ⟨-, -, F', hF, recs, g⟩ := h.inv; exact .of_glob hF g

theorem CertOK.steps {cfg : Cfg} {F : Form} {db db' : Cdb} {s s' : Stk} (h : CertOK cfg F db s) (hi : RInv db s) (p : PSteps db s db' s') : CertOK cfg F db' s' := by
  obtain ⟨F', hF, a, w⟩ := h
  obtain ⟨-, sm, -⟩ := p.allR hi
  have t := p.trn (k := true) (r := true) hi
  exact ⟨F', hF, by rw [sm.cert]; exact a, by rw [sm.cert, t.sp.numVars]; exact w⟩

theorem Visited.certOK {cfg : Cfg} {F : Form} {db : Cdb} {s : Stk} (h : Visited cfg F db s) : CertOK cfg F db s := by
  cases h with
  | head h => obtain ⟨F', hF, h1⟩ := h.sok; obtain ⟨recs, g, -⟩ := h1.glob; exact .of_glob hF g
  | decided h => exact h.certOK
  | propagating h =>
    induction h with
    | start h => exact h.certOK
    | @reused db db' s s' q h e ih =>
      have hg := reuse_good (q := q) h.pinv
      rw [e] at hg
      exact ih.steps h.pinv.rinv hg
    | @literal db db' s s' p h hp e ih =>
      have a := advance_step (db := db) hp
      have h' := (a.all h.pinv).1
      have hg := propLit_good PK.pinv (sandbox := false) (p := p) h' (h'.inv.tv p (List.mem_of_getElem? (by simpa using hp)))
      rw [e] at hg
      exact (ih.steps h.pinv.rinv a).steps h'.rinv hg
  | @propagated db0 _ s0 _ q h e =>
    have p := h.inv.1
    have hg := propagate_good (q := q) p
    rw [e] at hg
    exact h.certOK.steps p.rinv hg
  | conflict h => obtain ⟨-, -, -, F', hF, recs, g⟩ := h.inv; exact .of_glob hF g
  | @handled db0 _ s0 _ l r low rr drift h hd e =>
    obtain ⟨p, d, hok, F', hF, recs, g⟩ := h.inv
    exact .of_glob hF (g.step (handle_tr p d hd hok e))
  | inner h => obtain ⟨-, F', hF, recs, g⟩ := h.glob; exact .of_glob hF g
  | probe h =>
    induction h with
    | start h => obtain ⟨-, F', hF, recs, g⟩ := h.glob; exact .of_glob hF g
    | assign _ _ _ _ ih => exact ih
    | ok h e ih =>
      have := propagateSandbox_good h.inv
      rw [e] at this
      exact ih.steps h.inv this
    | conflict h e ih =>
      have := propagateSandbox_good h.inv
      rw [e] at this
      exact ih.steps h.inv this.1

end Splr
