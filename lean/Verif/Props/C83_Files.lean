import Verif.Model.Files
import Verif.Props.C81_Program
/-!
# C83: the files that `splr` writes and `dmcr` reads
-/
namespace Splr.Files
open Path Cli Dimacs Cert Stage

/-! ## paths -/

theorem parts_ne (p : List Char) : parts p ≠ [] := by
  cases p with
  | nil => simp [parts]
  | cons c cs => simp only [parts]; split <;> [simp; (split <;> simp)]

theorem parts_append_slash : ∀ a b : List Char, parts (a ++ '/' :: b) = parts a ++ parts b
  | [], b => by simp [parts]
  | c :: cs, b => by
    have ih := parts_append_slash cs b
    by_cases hc : c = '/'
    · simp [parts, hc, ih]
    · simp only [List.cons_append, parts, hc, if_false, ih]
      cases h : parts cs with
      | nil => exact absurd h (parts_ne cs)
      | cons w ws => simp

theorem parts_noslash : ∀ {n : List Char}, '/' ∉ n → parts n = [n]
  | [], _ => rfl
  | c :: cs, h => by
    have h1 : c ≠ '/' := fun e => h (by simp [e])
    have := parts_noslash (n := cs) (fun e => h (by simp [e]))
    simp [parts, h1, this]

theorem mem_parts_noslash : ∀ {p w : List Char}, w ∈ parts p → '/' ∉ w
  | [], w, h => by simp [parts] at h; simp [h]
  | c :: cs, w, h => by
    by_cases hc : c = '/'
    · simp only [parts, hc, if_true, List.mem_cons] at h
      rcases h with rfl | h
      · simp
      · exact mem_parts_noslash h
    · simp only [parts, hc, if_false] at h
      cases e : parts cs with
      | nil => exact absurd e (parts_ne cs)
      | cons v vs =>
        rw [e] at h
        simp only [List.mem_cons] at h
        rcases h with rfl | h
        · have := mem_parts_noslash (p := cs) (w := v) (by simp [e])
          simp only [List.mem_cons, not_or]
          exact ⟨fun e => hc e.symm, this⟩
        · exact mem_parts_noslash (p := cs) (by simp [e, h])

/-- Joining paths is walking one after the other. -/
theorem locate_join (cwd : List (List Char)) (a b : List Char) : locate cwd (join a b) = locate (locate cwd a) b := by
  unfold join
  by_cases hb : b.head? = some '/'
  · rw [if_pos hb]; simp [locate, hb]
  · rw [if_neg hb]
    by_cases ha : a = []
    · subst ha
      simp [locate, hb, parts, walk]
    · by_cases hs : a.getLast? = some '/'
      · rw [if_pos (.inr hs)]
        obtain ⟨a', rfl⟩ : ∃ a', a = a' ++ ['/'] := by
          have := List.dropLast_append_getLast? _ hs
          exact ⟨_, this.symm⟩
        have e : (a' ++ ['/'] ++ b) = a' ++ '/' :: b := by simp
        have hh : (a' ++ '/' :: b).head? = (a' ++ ['/']).head? := by cases a' <;> rfl
        unfold locate
        rw [e, parts_append_slash, parts_append_slash, hh]
        simp only [hb, if_false, List.foldl_append]
        simp [parts, walk]
      · rw [if_neg (by simp [ha, hs])]
        have hh : (a ++ '/' :: b).head? = a.head? := by cases a <;> simp at ha ⊢
        unfold locate
        rw [parts_append_slash, hh]
        simp only [hb, if_false, List.foldl_append]

/-- A proper name: no slash, not empty, not `.` or `..`. -/
def Name (n : List Char) : Prop := '/' ∉ n ∧ n ≠ [] ∧ n ≠ ['.'] ∧ n ≠ ['.', '.']

theorem locate_name {n : List Char} (h : Name n) (cwd : List (List Char)) : locate cwd n = cwd ++ [n] := by
  have hh : n.head? ≠ some '/' := by
    intro e
    cases n with
    | nil => simp at e
    | cons c cs => simp only [List.head?_cons, Option.some.injEq] at e; exact h.1 (by simp [e])
  simp [locate, parts_noslash h.1, hh, walk, h.2.1, h.2.2.1, h.2.2.2]

theorem foldl_walk_last : ∀ (ws : List (List Char)) (d : List (List Char)) {n : List Char},
    (ws.filterMap fun w => if w = [] ∨ w = ['.'] then none else if w = ['.', '.'] then some Comp.parent else some (.normal w)).getLast? = some (.normal n) →
    n ∈ ws ∧ n ≠ [] ∧ n ≠ ['.'] ∧ n ≠ ['.', '.'] ∧ ∃ e, ws.foldl walk d = e ++ [n] := by
  intro ws
  induction ws using List.reverseRecOn with
  | nil => intro d n h; simp at h
  | append_singleton ws w ih =>
    intro d n h
    rw [List.filterMap_append] at h
    by_cases h1 : w = [] ∨ w = ['.']
    · simp only [List.filterMap_cons, h1, if_true, List.filterMap_nil, List.append_nil] at h
      obtain ⟨a, b, c, e, f⟩ := ih d h
      refine ⟨by simp [a], b, c, e, ?_⟩
      simpa [walk, h1] using f
    · by_cases h2 : w = ['.', '.']
      · subst h2; simp at h
      · simp only [List.filterMap_cons, h1, h2, if_false, List.filterMap_nil] at h
        simp only [List.getLast?_append, List.getLast?_singleton, Option.some_or, Option.some.injEq, Comp.normal.injEq] at h
        subst h
        rw [not_or] at h1
        refine ⟨by simp, h1.1, h1.2, h2, ws.foldl walk d, ?_⟩
        simp [walk, h1.1, h1.2, h2]

theorem fileName_spec {p n : List Char} (h : fileName p = some n) (cwd : List (List Char)) : Name n ∧ ∃ e, locate cwd p = e ++ [n] := by
  unfold fileName at h
  have hl : (components p).getLast? = some (.normal n) := by
    revert h
    cases (components p).getLast? with
    | none => simp
    | some c => cases c <;> simp
  have hl2 : ((parts p).filterMap fun w =>
      if w = [] ∨ w = ['.'] then none else if w = ['.', '.'] then some Comp.parent else some (.normal w)).getLast? = some (.normal n) := by
    unfold components at hl
    rw [List.getLast?_append] at hl
    revert hl
    generalize ((parts p).filterMap fun w =>
      if w = [] ∨ w = ['.'] then none else if w = ['.', '.'] then some Comp.parent else some (.normal w)).getLast? = o
    intro hl
    cases o with
    | some c => simpa using hl
    | none =>
      split at hl <;> [simp at hl; (split at hl <;> simp at hl)]
  obtain ⟨a, b, c, e, f⟩ := foldl_walk_last (parts p) (if p.head? = some '/' then [] else cwd) hl2
  exact ⟨⟨mem_parts_noslash a, b, c, e⟩, f⟩

theorem Name.ans {n : List Char} (h : Name n) : Name (ansName n) := by
  refine ⟨?_, by simp [ansName], by simp [ansName], by simp [ansName]⟩
  have := h.1
  simp [ansName, this]

theorem ansName_ne (n : List Char) : ansName n ≠ n := by
  intro e
  have := congrArg List.length e
  simp only [ansName, List.length_cons] at this
  omega

theorem last_eq {a b : List (List Char)} {x y : List Char} (h : a ++ [x] = b ++ [y]) : x = y := by
  have := congrArg List.getLast? h
  simpa using this

/-! ## the names -/

/-- **C83.** Without `-r` and `-o`, `splr` writes the answer where `dmcr`, called in the same directory with the same path, looks for it: in that directory, under the
name of the file with `ans_` before it. -/
theorem C83_same_answer_file {φ : Type} {c : Cli.Conf φ} {n : List Char} (hd : c.dir = ['.']) (hr : c.result = []) (hn : fileName c.cnf = some n)
    (cwd : List (List Char)) :
    ∃ p q, answerPath c = some (some p) ∧ dmcrPath none c.cnf = some q ∧ locate cwd p = cwd ++ ["ans_".toList ++ n] ∧
      locate cwd q = cwd ++ ["ans_".toList ++ n] := by
  have hN := (fileName_spec hn cwd).1.ans
  refine ⟨join c.dir (ansName n), ansName n, by simp [answerPath, hr, hn], by simp [dmcrPath, hn], ?_, ?_⟩
  · rw [locate_join, hd, locate_name hN]
    simp [locate, parts, walk, ansName]
  · rw [locate_name hN]; simp [ansName]

/-- **C83.** Without `-r` the answer never overwrites the input, wherever `-o` and the path of the input lead, and it overwrites the certificate only if the
certificate is named like it. -/
theorem C83_answer_is_apart {φ : Type} {c : Cli.Conf φ} {n : List Char} (hr : c.result = []) (hn : fileName c.cnf = some n) (cwd : List (List Char)) :
    ∃ p, answerPath c = some (some p) ∧ locate cwd p ≠ locate cwd c.cnf ∧
      ∀ m, fileName c.proof = some m → m ≠ "ans_".toList ++ n → locate cwd p ≠ locate cwd (join c.dir c.proof) := by
  obtain ⟨hN, e, he⟩ := fileName_spec hn cwd
  refine ⟨join c.dir (ansName n), by simp [answerPath, hr, hn], ?_, ?_⟩
  · rw [locate_join, locate_name hN.ans, he]
    exact fun h => ansName_ne n (last_eq h)
  · intro m hm hne
    obtain ⟨-, f, hf⟩ := fileName_spec hm (locate cwd c.dir)
    rw [locate_join, locate_join, locate_name hN.ans, hf]
    intro h
    exact hne (by rw [← last_eq h]; simp [ansName])

/-! ## the disk afterwards -/

variable {K : Type} [LinearOrder K]

/-- What a user may expect of the disk after `splr` on the file with the clauses `F`, started with the disk `d` in the directory `cwd`; `n`: the name of the input. -/
structure Kept (cwd : List (List Char)) (path n : List Char) (d d' : Disk) : Prop where
  input : d' (locate cwd path) = d (locate cwd path)
  others : ∀ l, l ≠ cwd ++ ["ans_".toList ++ n] → l ≠ cwd ++ ["proof.drat".toList] → d' l = d l

/-- The disk with the certificate at `P` and the answer at `A`. -/
def after (d : Disk) (A P : List (List Char)) (left : List Char) : Option (List Char) → Option (List Char) → Disk
  | some a, proof => (d.write P (proof.getD left)).write A a
  | none, proof => d.write P (proof.getD left)

theorem splrOn_eq {φ : Type} {cf : Cli.Conf φ} {run : List Char → Ending} {left text pa : List Char} {cwd A P : List (List Char)} {d : Disk}
    (hfile : d (locate cwd cf.cnf) = some text) (ea : answerPath cf = some (some pa)) (hA : locate cwd pa = A) (hpd : cf.proof = proofDefault)
    (hcert : cf.certify = true) (hP : locate cwd (join cf.dir cf.proof) = P) {code : Nat} {answer proof : Option (List Char)}
    (hE : run text = .exits code answer proof) :
    splrOn run left cwd cf d = .exits code (after d A P left answer proof) := by
  subst hA hP
  unfold splrOn
  rw [hfile, ea]
  simp only [hE, hpd, ne_eq, not_true_eq_false, false_and, if_false, proofPath, hcert, if_true]
  cases answer <;> rfl

theorem write_at (d : Disk) (P : List (List Char)) (a : List Char) : d.write P a P = some a := by simp [Disk.write]

theorem write_ne (d : Disk) {P l : List (List Char)} (a : List Char) (h : l ≠ P) : d.write P a l = d l := by simp [Disk.write, h]

/-- **C83.** For all names: a run changes at most two files, both seen from the directory of `-o`: the certificate, with `--certify`, and the answer, unless it is
sent to the standard output with `-r -`; and there is no answer file for another input name. -/
theorem C83_only_these {φ : Type} {c : Cli.Conf φ} {run : List Char → Ending} {left : List Char} {cwd : List (List Char)} {d d' : Disk} {code : Nat}
    (h : splrOn run left cwd c d = .exits code d') {l : List (List Char)} (hl : d' l ≠ d l) :
    (c.certify = true ∧ l = locate (locate cwd c.dir) c.proof) ∨
    (c.result = [] ∧ ∃ n, fileName c.cnf = some n ∧ l = locate cwd c.dir ++ ["ans_".toList ++ n]) ∨
    (c.result ≠ [] ∧ c.result ≠ ['-'] ∧ l = locate (locate cwd c.dir) c.result) := by
  have hA : ∀ {out}, answerPath c = some out → ∀ p, out = some p →
      (c.result = [] ∧ ∃ n, fileName c.cnf = some n ∧ locate cwd p = locate cwd c.dir ++ ["ans_".toList ++ n]) ∨
      (c.result ≠ [] ∧ c.result ≠ ['-'] ∧ locate cwd p = locate (locate cwd c.dir) c.result) := by
    intro out ho p hp
    subst hp
    unfold answerPath at ho
    split at ho
    · simp at ho
    · next h1 =>
      split at ho
      · next h2 =>
        rw [Option.map_eq_some_iff] at ho
        obtain ⟨n, hn, e⟩ := ho
        rw [Option.some.injEq] at e
        refine .inl ⟨h2, n, hn, ?_⟩
        rw [← e, locate_join, locate_name (fileName_spec hn cwd).1.ans]
        simp [ansName]
      · next h2 =>
        rw [Option.some.injEq, Option.some.injEq] at ho
        exact .inr ⟨h2, h1, by rw [← ho, locate_join]⟩
  unfold splrOn at h
  split at h
  · simp at h
  · split at h
    · simp at h
    · next out ho =>
      split at h
      · simp at h
      · split at h
        · simp at h
        · simp at h
        · next answer proof _ =>
          rw [Ran.exits.injEq] at h
          obtain ⟨-, rfl⟩ := h
          have h1 : (match proofPath c with
              | some p => d.write (locate cwd p) (proof.getD left)
              | none => d) l ≠ d l → c.certify = true ∧ l = locate (locate cwd c.dir) c.proof := by
            intro h
            unfold proofPath at h
            by_cases hc : c.certify = true
            · refine ⟨hc, ?_⟩
              simp only [hc, if_true] at h
              by_contra hne
              exact h (write_ne _ _ (by rwa [locate_join]))
            · simp [hc] at h
          rcases out with _ | p
          · exact .inl (h1 hl)
          · rcases answer with _ | a
            · exact .inl (h1 hl)
            · by_cases hlp : l = locate cwd p
              · have := hA ho p rfl
                rw [← hlp] at this
                exact .inr this
              · exact .inl (h1 fun e => hl ((write_ne _ a hlp).trans e))

/-- **C83.** For all names: what is written is found at its place. With `--certify` and exit code 20 the certificate is there unless the answer went to the same place;
an answer that is not sent to the standard output is there. -/
theorem C83_written {φ : Type} {c : Cli.Conf φ} {run : List Char → Ending} {left text : List Char} {cwd : List (List Char)} {d : Disk} {code : Nat}
    {answer proof : Option (List Char)} (hf : d (locate cwd c.cnf) = some text) (hE : run text = .exits code answer proof)
    (hn : c.result = [] → ∃ n, fileName c.cnf = some n) (ha : c.proof = "proof.drat".toList ∨ c.certify = true) :
    ∃ d', splrOn run left cwd c d = .exits code d' ∧
      (∀ a n, answer = some a → c.result = [] → fileName c.cnf = some n → d' (locate cwd c.dir ++ ["ans_".toList ++ n]) = some a) ∧
      (∀ a, answer = some a → c.result ≠ [] → c.result ≠ ['-'] → d' (locate (locate cwd c.dir) c.result) = some a) ∧
      (∀ t, proof = some t → c.certify = true → answer = none ∨ c.result = ['-'] → d' (locate (locate cwd c.dir) c.proof) = some t) := by
  have hno : ¬ (c.proof ≠ proofDefault ∧ c.certify = false) := by
    rintro ⟨h1, h2⟩
    rcases ha with h | h
    · exact h1 (by rw [h]; rfl)
    · simp [h] at h2
  obtain ⟨out, ho⟩ : ∃ out, answerPath c = some out := by
    unfold answerPath
    split
    · exact ⟨_, rfl⟩
    · split
      · next h => obtain ⟨n, hn⟩ := hn h; exact ⟨_, by rw [hn]; rfl⟩
      · exact ⟨_, rfl⟩
  unfold splrOn
  rw [hf, ho]
  simp only [if_neg hno, hE]
  refine ⟨_, rfl, ?_, ?_, ?_⟩
  · intro a n e hr hn
    subst e
    have : out = some (join c.dir (ansName n)) := by
      simp only [answerPath, hr, hn] at ho
      simpa using ho.symm
    subst this
    have hp : locate cwd (join c.dir (ansName n)) = locate cwd c.dir ++ ["ans_".toList ++ n] := by
      rw [locate_join, locate_name (fileName_spec hn cwd).1.ans]; simp [ansName]
    simp only [hp]
    exact write_at _ _ _
  · intro a e h1 h2
    subst e
    have : out = some (join c.dir c.result) := by
      simp only [answerPath, h1, h2, if_false] at ho
      simpa using ho.symm
    subst this
    simp only [← locate_join]
    exact write_at _ _ _
  · intro t e hc h
    subst e
    have hd1 : (match proofPath c with
        | some p => d.write (locate cwd p) ((some t).getD left)
        | none => d) (locate (locate cwd c.dir) c.proof) = some t := by
      simp only [proofPath, hc, if_true, ← locate_join]
      exact write_at _ _ _
    rcases h with rfl | h
    · cases out <;> exact hd1
    · have : out = none := by simpa [answerPath, h] using ho.symm
      subst this
      exact hd1

/-- **C83.** A name for the certificate without `--certify` is refused, and only that. -/
theorem C83_refused {φ : Type} (c : Cli.Conf φ) (run : List Char → Ending) (left : List Char) (cwd : List (List Char)) (d : Disk)
    (hf : (d (locate cwd c.cnf)).isSome) (hn : (fileName c.cnf).isSome) :
    splrOn run left cwd c d = .aborted ↔ c.proof ≠ "proof.drat".toList ∧ c.certify = false := by
  obtain ⟨t, ht⟩ := Option.isSome_iff_exists.1 hf
  obtain ⟨n, hn⟩ := Option.isSome_iff_exists.1 hn
  obtain ⟨out, ho⟩ : ∃ out, answerPath c = some out := by
    unfold answerPath; rw [hn]
    split
    · exact ⟨_, rfl⟩
    · split <;> exact ⟨_, rfl⟩
  unfold splrOn
  rw [ht, ho]
  rw [show "proof.drat".toList = proofDefault from rfl]
  by_cases h : c.proof ≠ proofDefault ∧ c.certify = false
  · simp only [if_pos h]
    exact iff_of_true trivial h
  · simp only [if_neg h]
    refine iff_of_false ?_ h
    cases run t <;> exact fun e => by cases e

/-- **C83.** `splr --certify` with the default names, on a file that is not the certificate file: the input and all other files are as before; after exit code 10
`dmcr` on the same path finds the new answer and accepts it; after exit code 20 the certificate is in `proof.drat`, and the answer file says UNSATISFIABLE, or unit
propagation refutes the file and the answer file is as it was before. Missing for the full property: in the last case an answer file of an earlier run stays
(`C83_stale_answer`); the certificate overwrites an input of its name (`C83_proof_overwrites_input`); other names may collide (`C83_answer_overwrites_proof`). -/
theorem C83_files_partial {φ : Type} {cf : Cli.Conf φ} {n : List Char} (hd : cf.dir = ['.']) (hr : cf.result = []) (hp : cf.proof = "proof.drat".toList)
    (hcert : cf.certify = true) (hn : fileName cf.cnf = some n) {cwd : List (List Char)} (hin : locate cwd cf.cnf ≠ cwd ++ ["proof.drat".toList]) {d : Disk}
    {pre : List (List Char)} {nv nc : Nat} {body : List Line} (h : GoodFile pre nv nc body) (hnv : nv < 65535)
    (hfile : d (locate cwd cf.cnf) = some (fileText pre nv nc body)) {c : CfgW} (hen : c.cfg.enable = true) (p : PreW) (u : Nat) (ts : List (TickW K))
    (hts : answerBound nv ≤ ts.length) (low : Nat → Bool) (act : Nat → Nat → Nat → Bool) (report : List (List Char)) (left : List Char) :
    ∃ code d', splrOn (splrA c p u ts low act report) left cwd cf d = .exits code d' ∧ Kept cwd cf.cnf n d d' ∧
      (code = 10 → (formOf body).Satisfiable ∧
        (1 ≤ nv → (∀ t ∈ report, '\n' ∉ t ∧ ∃ r, t = 'c' :: r) → dmcrOn cwd none cf.cnf d' = some .valid)) ∧
      (code = 20 → ¬ (formOf body).Satisfiable ∧ (∃ text, d' (cwd ++ ["proof.drat".toList]) = some text ∧ VerifiedFile (formOf body) text) ∧
        (d' (cwd ++ ["ans_".toList ++ n]) = some (statusText report "s UNSATISFIABLE".toList) ∨
          (RUP (formOf body) [] ∧ d' (cwd ++ ["ans_".toList ++ n]) = d (cwd ++ ["ans_".toList ++ n])))) ∧
      (code = 10 ∨ code = 20 ∨ code = 0) := by
  obtain ⟨hN, e, he⟩ := fileName_spec hn cwd
  obtain ⟨pa, qa, ea, eq, la, lq⟩ := C83_same_answer_file hd hr hn cwd
  have hai : cwd ++ ["ans_".toList ++ n] ≠ locate cwd cf.cnf := by
    rw [he]; exact fun h => ansName_ne n (last_eq h)
  have hap : cwd ++ ["ans_".toList ++ n] ≠ cwd ++ ["proof.drat".toList] := by
    intro h
    have := last_eq h
    simp at this
  have hlp : locate cwd (join cf.dir proofDefault) = cwd ++ ["proof.drat".toList] := by
    rw [locate_join, hd, locate_name (by simp [Name, proofDefault])]
    simp [locate, parts, walk, proofDefault]
  have hpd : cf.proof = proofDefault := by rw [hp]; rfl
  have hmain := C81_program (K := K) h hnv hen p u ts low act report
  have hright := hmain.resolve_right (fun h => by omega)
  have hlp' : locate cwd (join cf.dir cf.proof) = cwd ++ ["proof.drat".toList] := by rw [hpd]; exact hlp
  have hrun : ∀ {code : Nat} {answer proof : Option (List Char)},
      splrA c p u ts low act report (fileText pre nv nc body) = .exits code answer proof →
        splrOn (splrA c p u ts low act report) left cwd cf d = .exits code (after d (cwd ++ ["ans_".toList ++ n]) (cwd ++ ["proof.drat".toList]) left answer proof) :=
    fun hE => splrOn_eq (left := left) hfile ea la hpd hcert hlp' hE
  have hdc : ∀ {d' : Disk} {cnf ans : List Char}, d' (locate cwd cf.cnf) = some cnf → d' (cwd ++ ["ans_".toList ++ n]) = some ans →
      dmcrOn cwd none cf.cnf d' = some (dmcr cnf ans) := by
    intro d' cnf ans h1 h2
    unfold dmcrOn
    rw [eq, h1]
    simp only [lq]
    rw [h2]; rfl
  have hkept : ∀ {d' : Disk}, (∀ l, l ≠ cwd ++ ["ans_".toList ++ n] → l ≠ cwd ++ ["proof.drat".toList] → d' l = d l) → Kept cwd cf.cnf n d d' :=
    fun hk => ⟨hk _ hai.symm hin, hk⟩
  clear hmain
  generalize cwd ++ ["ans_".toList ++ n] = A at *
  generalize cwd ++ ["proof.drat".toList] = P at *
  revert hright hrun
  generalize splrA c p u ts low act report (fileText pre nv nc body) = E
  generalize splrOn (splrA c p u ts low act report) left cwd cf d = R
  intro hright hrun
  cases hright with
  | sat vals hc hs hdm =>
    have hk : ∀ l, l ≠ A → l ≠ P → ((d.write P ((none : Option (List Char)).getD left)).write A (answerText report vals)) l = d l :=
      fun l h1 h2 => by rw [write_ne _ _ h1, write_ne _ _ h2]
    refine ⟨10, _, hrun rfl, hkept hk, fun _ => ⟨⟨_, hs⟩, fun h1 h2 => ?_⟩, by omega, by omega⟩
    exact (hdc ((hk _ hai.symm hin).trans hfile) (write_at _ _ _)).trans (by rw [hdm h1 h2])
  | unsat proof hu hpr =>
    have hk : ∀ l, l ≠ A → l ≠ P → ((d.write P ((some proof).getD left)).write A (statusText report "s UNSATISFIABLE".toList)) l = d l :=
      fun l h1 h2 => by rw [write_ne _ _ h1, write_ne _ _ h2]
    exact ⟨20, _, hrun rfl, hkept hk, by omega, fun _ => ⟨hu, ⟨proof, (write_ne _ _ hap.symm).trans (write_at _ _ _), hpr⟩, .inl (write_at _ _ _)⟩,
      by omega⟩
  | refuted proof hu hR hpr =>
    have hk : ∀ l, l ≠ A → l ≠ P → (d.write P ((some proof).getD left)) l = d l := fun l _ h2 => write_ne _ _ h2
    exact ⟨20, _, hrun rfl, hkept hk, by omega, fun _ => ⟨hu, ⟨proof, write_at _ _ _, hpr⟩, .inr ⟨hR, write_ne _ _ hap⟩⟩, by omega⟩
  | unknown =>
    have hk : ∀ l, l ≠ A → l ≠ P → ((d.write P ((none : Option (List Char)).getD left)).write A (statusText report "s UNKNOWN".toList)) l = d l :=
      fun l h1 h2 => by rw [write_ne _ _ h1, write_ne _ _ h2]
    exact ⟨0, _, hrun rfl, hkept hk, by omega, by omega, by omega⟩

/-- A command line with the given input, answer and certificate names. -/
def exConf (cnf result proof : List Char) : Cli.Conf Unit where
  cl := 0
  crl := 5
  ecl := 18
  evl := 0
  evo := 20000
  timeout := ()
  cdr := ()
  cr1 := ()
  cr2 := ()
  rlt := ()
  vdr := ()
  vds := ()
  cnf := cnf
  dir := ['.']
  proof := proof
  result := result
  noColor := false
  quiet := false
  certify := true
  heatmap := false
  journal := false
  help := false
  version := false

/-- Paths whose name is found, and paths without one. -/
example : fileName "a/b.cnf".toList = some "b.cnf".toList ∧ fileName "../x//a.cnf/.".toList = some "a.cnf".toList ∧ fileName "..".toList = none ∧
    fileName "./".toList = none ∧ fileName "/".toList = none := by decide +kernel

/-- The hypotheses of `C83_files_partial` are met. -/
example : ∃ (d : Disk) (ts : List (TickW Int)), let cf := exConf "x/a.cnf".toList [] "proof.drat".toList
    cf.dir = ['.'] ∧ cf.result = [] ∧ cf.proof = "proof.drat".toList ∧ cf.certify = true ∧ fileName cf.cnf = some "a.cnf".toList ∧
    locate ["home".toList] cf.cnf ≠ ["home".toList] ++ ["proof.drat".toList] ∧ GoodFile [] 12 51 exBodyW ∧ 12 < 65535 ∧
    d (locate ["home".toList] cf.cnf) = some (fileText [] 12 51 exBodyW) ∧ exCfgW.cfg.enable = true ∧ answerBound 12 ≤ ts.length :=
  ⟨fun _ => some (fileText [] 12 51 exBodyW), List.replicate (answerBound 12) exTickW, rfl, rfl, rfl, rfl, by decide +kernel, by decide +kernel, exFileW, by decide, rfl,
    rfl, by simp⟩

theorem exRefuted : splrA exCfgW exPreW 32 (List.replicate 30 exTickW) noLow exAct ["c r".toList] (fileText [] 3 3 exBodyR) = .exits 20 none (some []) := by
  decide +kernel

theorem exUnsat : splrA exCfgW exPreW 32 (List.replicate 30 exTickW) noLow exAct ["c r".toList] (fileText [] 2 4 exBodyU) =
    .exits 20 (some "c r\ns UNSATISFIABLE\n0\n".toList) (some "1 2 0\n-1 2 0\n1 -2 0\n-1 -2 0\n1 0\n0\n".toList) := by decide +kernel

/-- The call `splr --certify` in the directory `/home`. -/
def exRun (cnf result : List Char) (d : Disk) : Ran :=
  splrOn (splrA exCfgW exPreW 32 (List.replicate 30 exTickW) noLow exAct ["c r".toList]) [] ["home".toList] (exConf cnf result "proof.drat".toList) d

/-- A disk with one file. -/
def exDisk : Disk := fun l => if l = ["home".toList, "a.cnf".toList] then some (fileText [] 2 4 exBodyU) else none

/-- The hypotheses of `C83_only_these`, `C83_written` and `C83_refused` are met. -/
example : ∃ d d' : Disk, exRun "x/../a.cnf".toList "/tmp//r".toList d = .exits 20 d' ∧ d' ["tmp".toList, "r".toList] ≠ d ["tmp".toList, "r".toList] ∧
    d (locate ["home".toList] "x/../a.cnf".toList) = some (fileText [] 2 4 exBodyU) ∧ fileName "x/../a.cnf".toList = some "a.cnf".toList := by
  have hf : exDisk (locate ["home".toList] "x/../a.cnf".toList) = some (fileText [] 2 4 exBodyU) := by decide +kernel
  obtain ⟨d', e, -, h2, -⟩ := C83_written (left := []) (d := exDisk) (cwd := ["home".toList]) (c := exConf "x/../a.cnf".toList "/tmp//r".toList "proof.drat".toList) hf exUnsat
    (fun h => ⟨"a.cnf".toList, by decide +kernel⟩) (.inr rfl)
  refine ⟨_, d', e, ?_, hf, by decide +kernel⟩
  have h3 := h2 _ rfl (by decide +kernel) (by decide +kernel)
  have h4 : locate (locate ["home".toList] (exConf "x/../a.cnf".toList "/tmp//r".toList "proof.drat".toList).dir)
      (exConf "x/../a.cnf".toList "/tmp//r".toList "proof.drat".toList).result = ["tmp".toList, "r".toList] := by decide +kernel
  rw [h4] at h3
  rw [h3]
  decide +kernel

/-- **C83 is violated.** Exit code 20 ("unsatisfiable"), but the answer file still is that of an earlier run, whatever it says: a file that is refuted while it is
loaded has no answer file of its own. -/
theorem C83_stale_answer {d : Disk} {old : List Char} (hf : d ["home".toList, "a.cnf".toList] = some (fileText [] 3 3 exBodyR))
    (ho : d ["home".toList, "ans_a.cnf".toList] = some old) :
    ∃ d', exRun "a.cnf".toList [] d = .exits 20 d' ∧ d' ["home".toList, "ans_a.cnf".toList] = some old := by
  refine ⟨_, splrOn_eq (pa := join ['.'] (ansName "a.cnf".toList)) (A := ["home".toList, "ans_a.cnf".toList]) (P := ["home".toList, "proof.drat".toList])
    (text := fileText [] 3 3 exBodyR) hf (by decide +kernel) (by decide +kernel) rfl rfl (by decide +kernel) exRefuted, ?_⟩
  exact (write_ne _ _ (by decide)).trans ho

/-- **C83 is violated.** `splr --certify proof.drat` overwrites the file it reads. -/
theorem C83_proof_overwrites_input {d : Disk} (hf : d ["home".toList, "proof.drat".toList] = some (fileText [] 2 4 exBodyU)) :
    ∃ d', exRun "proof.drat".toList [] d = .exits 20 d' ∧ d' ["home".toList, "proof.drat".toList] ≠ d ["home".toList, "proof.drat".toList] := by
  refine ⟨_, splrOn_eq (pa := join ['.'] (ansName "proof.drat".toList)) (A := ["home".toList, "ans_proof.drat".toList])
    (P := ["home".toList, "proof.drat".toList]) (text := fileText [] 2 4 exBodyU) hf (by decide +kernel) (by decide +kernel) rfl rfl (by decide +kernel) exUnsat, ?_⟩
  rw [hf]
  have : after d ["home".toList, "ans_proof.drat".toList] ["home".toList, "proof.drat".toList] [] (some "c r\ns UNSATISFIABLE\n0\n".toList)
      (some "1 2 0\n-1 2 0\n1 -2 0\n-1 -2 0\n1 0\n0\n".toList) ["home".toList, "proof.drat".toList] = some "1 2 0\n-1 2 0\n1 -2 0\n-1 -2 0\n1 0\n0\n".toList :=
    (write_ne _ _ (by decide)).trans (write_at _ _ _)
  rw [this]
  decide +kernel

/-- **C83 is violated.** `splr --certify -r proof.drat a.cnf` loses the certificate: the answer is written over it. -/
theorem C83_answer_overwrites_proof {d : Disk} (hf : d ["home".toList, "a.cnf".toList] = some (fileText [] 2 4 exBodyU)) :
    ∃ d', exRun "a.cnf".toList "proof.drat".toList d = .exits 20 d' ∧ d' ["home".toList, "proof.drat".toList] = some "c r\ns UNSATISFIABLE\n0\n".toList :=
  ⟨_, splrOn_eq (pa := join ['.'] "proof.drat".toList) (A := ["home".toList, "proof.drat".toList]) (P := ["home".toList, "proof.drat".toList])
    (text := fileText [] 2 4 exBodyU) hf (by decide +kernel) (by decide +kernel) rfl rfl (by decide +kernel) exUnsat, write_at _ _ _⟩

/-- **C83.** Files of the same name share the answer file, wherever they are: a later run overwrites the answer of an earlier one. -/
theorem C83_same_names_share {φ : Type} {c c' : Cli.Conf φ} (hd : c.dir = c'.dir) (hr : c.result = []) (hr' : c'.result = []) :
    fileName c.cnf = fileName c'.cnf → answerPath c = answerPath c' := by
  intro h; simp [answerPath, hd, hr, hr', h]

example : answerPath (exConf "x/a.cnf".toList [] []) = answerPath (exConf "../a.cnf".toList [] []) := by decide +kernel

/-- **C83.** A path without a file name (`.`, `..`, `/`, ..) that leads to something readable: `splr` panics unless `-r` is given. -/
theorem C83_no_name {φ : Type} {c : Cli.Conf φ} (hr : c.result = []) (hn : fileName c.cnf = none) (run : List Char → Ending) (left : List Char)
    (cwd : List (List Char)) (d : Disk) (he : (d (locate cwd c.cnf)).isSome) : splrOn run left cwd c d = .panics := by
  obtain ⟨t, ht⟩ := Option.isSome_iff_exists.1 he
  simp [splrOn, ht, answerPath, hr, hn]

end Splr.Files
