import Verif.Spec.Cli
/-!
# C60: the command line
-/
namespace Splr.Cli
open Text

/-- The value of `--crl` is kept in 16 bits. -/
def Opt.Fits : Opt → Prop
  | .crl v => ∀ n, parseUsize v = some n → n < 65536
  | _ => True

theorem loop_flag {φ : Type} {pf : List Char → Option φ} {n : List Char} {as : List (List Char)} {c c1 : Conf φ} (hn : '=' ∉ n)
    (h : setLong n c = some c1) : loop pf (('-' :: '-' :: n) :: as) c = loop pf as c1 := by
  cases as <;> simp [loop, hn, h]

theorem loop_short {φ : Type} {pf : List Char → Option φ} {n : List Char} {as : List (List Char)} {c c1 : Conf φ} (hn : n.head? ≠ some '-')
    (h : setShort n c = some c1) : loop pf (('-' :: n) :: as) c = loop pf as c1 := by
  have e : ∀ m, '-' :: n = '-' :: '-' :: m → False := by
    rintro m hm
    simp only [List.cons.injEq, true_and] at hm
    subst hm
    exact hn rfl
  cases as <;> simp_all [loop]

theorem loop_opt {φ : Type} {pf : List Char → Option φ} {o : Opt} {c c1 : Conf φ} (h : o.Means pf c c1) (hf : o.Fits) (as : List (List Char)) :
    loop pf (o.words ++ as) c = loop pf as c1 := by
  cases o with
  | noColor l =>
    cases h
    cases l
    · exact loop_short (by simp) (by simp [setShort])
    · exact loop_flag (by simp) (by simp [setLong])
  | quiet l =>
    cases h
    cases l
    · exact loop_short (by simp) (by simp [setShort])
    · exact loop_flag (by simp) (by simp [setLong])
  | certify l =>
    cases h
    cases l
    · exact loop_short (by simp) (by simp [setShort])
    · exact loop_flag (by simp) (by simp [setLong])
  | heatmap l =>
    cases h
    cases l
    · exact loop_short (by simp) (by simp [setShort])
    · exact loop_flag (by simp) (by simp [setLong])
  | journal l =>
    cases h
    cases l
    · exact loop_short (by simp) (by simp [setShort])
    · exact loop_flag (by simp) (by simp [setLong])
  | help l =>
    cases h
    cases l
    · exact loop_short (by simp) (by simp [setShort])
    · exact loop_flag (by simp) (by simp [setLong])
  | version l =>
    cases h
    cases l
    · exact loop_short (by simp) (by simp [setShort])
    · exact loop_flag (by simp) (by simp [setLong])
  | crl v =>
    obtain ⟨n, h1, rfl⟩ := h
    have := hf n h1
    simp [Opt.words, loop, setLong, usizeNames, setUsize, h1, Nat.mod_eq_of_lt this]
  | dir l v => cases l <;> cases h <;> simp [Opt.words, loop, setLong, setShort, usizeNames, f64Names, pathNames, setPath, setShortOpt]
  | proof l v => cases l <;> cases h <;> simp [Opt.words, loop, setLong, setShort, usizeNames, f64Names, pathNames, setPath, setShortOpt]
  | result l v => cases l <;> cases h <;> simp [Opt.words, loop, setLong, setShort, usizeNames, f64Names, pathNames, setPath, setShortOpt]
  | timeout l v =>
    obtain ⟨t, h1, rfl⟩ := h
    cases l <;> simp [Opt.words, loop, setLong, setShort, usizeNames, f64Names, setF64, setShortOpt, h1]
  | _ =>
    obtain ⟨n, h1, rfl⟩ := h
    simp [Opt.words, loop, setLong, usizeNames, f64Names, setUsize, setF64, h1]

theorem loop_opts {φ : Type} {pf : List Char → Option φ} {os : List Opt} {c c1 : Conf φ} (h : MeansAll pf os c c1) (hf : ∀ o ∈ os, o.Fits)
    (as : List (List Char)) : loop pf (os.flatMap Opt.words ++ as) c = loop pf as c1 := by
  induction h with
  | nil c => rfl
  | cons h hs ih =>
    rw [List.flatMap_cons, List.append_assoc, loop_opt h (hf _ List.mem_cons_self)]
    exact ih fun o ho => hf o (List.mem_cons_of_mem _ ho)

theorem Means.cnf {φ : Type} {pf : List Char → Option φ} {o : Opt} {c c1 : Conf φ} (h : o.Means pf c c1) : c1.cnf = c.cnf := by
  cases o <;> first | (cases h; rfl) | (obtain ⟨_, _, rfl⟩ := h; rfl)

theorem MeansAll.cnf {φ : Type} {pf : List Char → Option φ} {os : List Opt} {c c1 : Conf φ} (h : MeansAll pf os c c1) : c1.cnf = c.cnf := by
  induction h with
  | nil c => rfl
  | cons h hs ih => rw [ih, Means.cnf h]

theorem loop_file {φ : Type} {pf : List Char → Option φ} {f : List Char} (hf : f.head? ≠ some '-') (as : List (List Char)) (c : Conf φ) :
    loop pf (f :: as) c = if c.cnf ≠ f then none else loop pf as c := by
  have e : ∀ n, f = '-' :: n → False := by
    rintro n rfl
    exact hf rfl
  have e2 : ∀ n, f = '-' :: '-' :: n → False := fun n => e _
  cases as <;> simp_all [loop]

/-- Options of the help text, then a file: each option has its documented effect on the configuration, the file is the one to be solved,
and nothing else changes. -/
theorem C60_documented_partial {φ : Type} {pf : List Char → Option φ} {there : List Char → Bool} {os : List Opt} {f : List Char} {c0 c1 : Conf φ}
    (hf : IsFile f) (hm : MeansAll pf os { c0 with cnf := f } c1) (hx : ∀ o ∈ os, o.Fits) :
    inject pf there (os.flatMap Opt.words ++ [f]) c0 =
      if c1.help then .help else if c1.version then .version else if there f then .run c1 else .missing f := by
  have e : c1.cnf = f := hm.cnf
  have : (os.flatMap Opt.words ++ [f]).getLast? = some f := by simp
  unfold inject
  simp only [this]
  rw [loop_opts hm hx, loop_file hf.2, if_neg (by simp [e])]
  simp [loop, e, hf.1]

theorem MeansAll.help {φ : Type} {pf : List Char → Option φ} {os : List Opt} {c c1 : Conf φ} (h : MeansAll pf os c c1)
    (hh : c.help = true ∨ ∃ l, Opt.help l ∈ os) : c1.help = true := by
  induction h with
  | nil c => simpa using hh
  | @cons o os c c1 c2 h hs ih =>
    apply ih
    rcases hh with hh | ⟨l, hl⟩
    · left
      cases o <;> first | (cases h; first | exact hh | rfl) | (obtain ⟨_, _, rfl⟩ := h; exact hh)
    · rcases List.mem_cons.mp hl with rfl | hl
      · left
        cases h
        rfl
      · exact .inr ⟨l, hl⟩

/-- With `-h` or `--help` among the options, the help text is printed: no file is needed. -/
theorem C60_help {φ : Type} {pf : List Char → Option φ} {there : List Char → Bool} {os : List Opt} {l : Bool} {c0 c1 : Conf φ} {f : List Char}
    (hf : (os.flatMap Opt.words).getLast? = some f) (hm : MeansAll pf os { c0 with cnf := f } c1) (hx : ∀ o ∈ os, o.Fits) (hl : .help l ∈ os) :
    inject pf there (os.flatMap Opt.words) c0 = .help := by
  have := loop_opts hm hx []
  rw [List.append_nil] at this
  unfold inject
  simp only [hf]
  rw [this]
  simp [loop, hm.help (.inr ⟨l, hl⟩)]

/-- `Acts pf w o c c1`: `o` is written `w`, and if its value fits, `c1` is what it means. -/
structure Acts {φ : Type} (pf : List Char → Option φ) (w : List (List Char)) (o : Opt) (c c1 : Conf φ) : Prop where
  words : o.words = w
  means : o.Fits → o.Means pf c c1
  cnf : c1.cnf = c.cnf

theorem acts_long {φ : Type} {pf : List Char → Option φ} {n : List Char} {c c1 : Conf φ} (h : setLong n c = some c1) :
    ∃ o, Acts pf ['-' :: '-' :: n] o c c1 := by
  unfold setLong at h
  split at h
  · cases h; subst n; exact ⟨.noColor true, rfl, fun _ => rfl, rfl⟩
  split at h
  · cases h; subst n; exact ⟨.quiet true, rfl, fun _ => rfl, rfl⟩
  split at h
  · cases h; subst n; exact ⟨.certify true, rfl, fun _ => rfl, rfl⟩
  split at h
  · cases h; subst n; exact ⟨.heatmap true, rfl, fun _ => rfl, rfl⟩
  split at h
  · cases h; subst n; exact ⟨.journal true, rfl, fun _ => rfl, rfl⟩
  split at h
  · cases h; subst n; exact ⟨.help true, rfl, fun _ => rfl, rfl⟩
  split at h
  · cases h; subst n; exact ⟨.version true, rfl, fun _ => rfl, rfl⟩
  cases h

theorem acts_short {φ : Type} {pf : List Char → Option φ} {n : List Char} {c c1 : Conf φ} (h : setShort n c = some c1) :
    ∃ o, Acts pf ['-' :: n] o c c1 := by
  unfold setShort at h
  split at h
  · cases h; subst n; exact ⟨.noColor false, rfl, fun _ => rfl, rfl⟩
  split at h
  · cases h; subst n; exact ⟨.quiet false, rfl, fun _ => rfl, rfl⟩
  split at h
  · cases h; subst n; exact ⟨.certify false, rfl, fun _ => rfl, rfl⟩
  split at h
  · cases h; subst n; exact ⟨.journal false, rfl, fun _ => rfl, rfl⟩
  split at h
  · cases h; subst n; exact ⟨.heatmap false, rfl, fun _ => rfl, rfl⟩
  split at h
  · cases h; subst n; exact ⟨.help false, rfl, fun _ => rfl, rfl⟩
  split at h
  · cases h; subst n; exact ⟨.version false, rfl, fun _ => rfl, rfl⟩
  cases h

theorem acts_usize {φ : Type} {pf : List Char → Option φ} {n v : List Char} {k : Nat} {c c1 : Conf φ} (hk : parseUsize v = some k)
    (h : setUsize n k c = some c1) : ∃ o, Acts pf ['-' :: '-' :: n, v] o c c1 := by
  unfold setUsize at h
  split at h
  · cases h; subst n; exact ⟨.cl v, rfl, fun _ => ⟨k, hk, rfl⟩, rfl⟩
  split at h
  · cases h; subst n; exact ⟨.crl v, rfl, fun hf => ⟨k, hk, by rw [Nat.mod_eq_of_lt (hf k hk)]⟩, rfl⟩
  split at h
  · cases h; subst n; exact ⟨.ecl v, rfl, fun _ => ⟨k, hk, rfl⟩, rfl⟩
  split at h
  · cases h; subst n; exact ⟨.evl v, rfl, fun _ => ⟨k, hk, rfl⟩, rfl⟩
  split at h
  · cases h; subst n; exact ⟨.evo v, rfl, fun _ => ⟨k, hk, rfl⟩, rfl⟩
  cases h

theorem acts_f64 {φ : Type} {pf : List Char → Option φ} {n v : List Char} {k : φ} {c c1 : Conf φ} (hk : pf v = some k)
    (h : setF64 n k c = some c1) : ∃ o, Acts pf ['-' :: '-' :: n, v] o c c1 := by
  unfold setF64 at h
  split at h
  · cases h; subst n; exact ⟨.timeout true v, rfl, fun _ => ⟨k, hk, rfl⟩, rfl⟩
  split at h
  · cases h; subst n; exact ⟨.cdr v, rfl, fun _ => ⟨k, hk, rfl⟩, rfl⟩
  split at h
  · cases h; subst n; exact ⟨.cr1 v, rfl, fun _ => ⟨k, hk, rfl⟩, rfl⟩
  split at h
  · cases h; subst n; exact ⟨.cr2 v, rfl, fun _ => ⟨k, hk, rfl⟩, rfl⟩
  split at h
  · cases h; subst n; exact ⟨.rlt v, rfl, fun _ => ⟨k, hk, rfl⟩, rfl⟩
  split at h
  · cases h; subst n; exact ⟨.vdr v, rfl, fun _ => ⟨k, hk, rfl⟩, rfl⟩
  split at h
  · cases h; subst n; exact ⟨.vds v, rfl, fun _ => ⟨k, hk, rfl⟩, rfl⟩
  cases h

theorem acts_path {φ : Type} {pf : List Char → Option φ} {n v : List Char} {c c1 : Conf φ} (h : setPath n v c = some c1) :
    ∃ o, Acts pf ['-' :: '-' :: n, v] o c c1 := by
  unfold setPath at h
  split at h
  · cases h; subst n; exact ⟨.dir true v, rfl, fun _ => rfl, rfl⟩
  split at h
  · cases h; subst n; exact ⟨.proof true v, rfl, fun _ => rfl, rfl⟩
  split at h
  · cases h; subst n; exact ⟨.result true v, rfl, fun _ => rfl, rfl⟩
  cases h

theorem acts_shortOpt {φ : Type} {pf : List Char → Option φ} {n v : List Char} {c c1 : Conf φ} (h : setShortOpt pf n v c = some c1) :
    ∃ o, Acts pf ['-' :: n, v] o c c1 := by
  unfold setShortOpt at h
  split at h
  · cases h; subst n; exact ⟨.dir false v, rfl, fun _ => rfl, rfl⟩
  split at h
  · cases h; subst n; exact ⟨.proof false v, rfl, fun _ => rfl, rfl⟩
  split at h
  · cases h; subst n; exact ⟨.result false v, rfl, fun _ => rfl, rfl⟩
  split at h
  · subst n
    obtain ⟨t, ht, rfl⟩ := Option.map_eq_some_iff.mp h
    exact ⟨.timeout false v, rfl, fun _ => ⟨t, ht, rfl⟩, rfl⟩
  cases h

theorem Line.acts {φ : Type} {pf : List Char → Option φ} {w as : List (List Char)} {o : Opt} {c c1 c2 : Conf φ} (ha : Acts pf w o c c1)
    (h : ∃ os, Line c1.cnf as os ∧ ((∀ o ∈ os, o.Fits) → MeansAll pf os c1 c2) ∧ c2.cnf = c1.cnf) :
    ∃ os, Line c.cnf (w ++ as) os ∧ ((∀ o ∈ os, o.Fits) → MeansAll pf os c c2) ∧ c2.cnf = c.cnf := by
  obtain ⟨os, hl, hm, he⟩ := h
  rw [ha.cnf] at hl
  exact ⟨o :: os, ha.words ▸ hl.opt, fun hf => .cons (ha.means (hf _ List.mem_cons_self)) (hm fun x hx => hf x (List.mem_cons_of_mem _ hx)), he.trans ha.cnf⟩

theorem loop_line {φ : Type} {pf : List Char → Option φ} (as : List (List Char)) (c : Conf φ) {c2 : Conf φ} (h : loop pf as c = some c2) :
    ∃ os, Line c.cnf as os ∧ ((∀ o ∈ os, o.Fits) → MeansAll pf os c c2) ∧ c2.cnf = c.cnf := by
  fun_induction loop pf as c with
  | case1 => cases h; exact ⟨[], .nil, fun _ => .nil _, rfl⟩
  | case2 => cases h
  | case3 n as c hn c1 h1 ih =>
    obtain ⟨o, ho⟩ := acts_long (pf := pf) h1
    exact Line.acts ho (ih h)
  | case4 => cases h
  | case5 n c hn h1 h2 v as1 ih =>
    obtain ⟨k, hk, h⟩ := Option.bind_eq_some_iff.mp h
    obtain ⟨c1, hc, h⟩ := Option.bind_eq_some_iff.mp h
    obtain ⟨o, ho⟩ := acts_usize (pf := pf) hk hc
    exact Line.acts ho (ih c1 h)
  | case6 => cases h
  | case7 n c hn h1 h2 h3 v as1 ih =>
    obtain ⟨k, hk, h⟩ := Option.bind_eq_some_iff.mp h
    obtain ⟨c1, hc, h⟩ := Option.bind_eq_some_iff.mp h
    obtain ⟨o, ho⟩ := acts_f64 (pf := pf) hk hc
    exact Line.acts ho (ih c1 h)
  | case8 => cases h
  | case9 n c hn h1 h2 h3 h4 v as1 ih =>
    obtain ⟨c1, hc, h⟩ := Option.bind_eq_some_iff.mp h
    obtain ⟨o, ho⟩ := acts_path (pf := pf) hc
    exact Line.acts ho (ih c1 h)
  | case10 => cases h
  | case11 n as c hn c1 h1 ih =>
    obtain ⟨o, ho⟩ := acts_short (pf := pf) h1
    exact Line.acts ho (ih h)
  | case12 => cases h
  | case13 n c hn h1 h2 v as1 ih =>
    obtain ⟨c1, hc, h⟩ := Option.bind_eq_some_iff.mp h
    obtain ⟨o, ho⟩ := acts_shortOpt hc
    exact Line.acts ho (ih c1 h)
  | case14 => cases h
  | case15 => cases h
  | case16 a as c h1 h2 h3 ih =>
    obtain ⟨os, hl, hm, he⟩ := ih h
    have : c.cnf = a := by simpa using h3
    exact ⟨os, this ▸ hl.file, hm, he⟩

/-- Nothing is ignored: when the solver is run, the command line consists of options, each with its documented effect,
and of the file to be solved, which exists and is the last word. -/
theorem C60_nothing_ignored_partial {φ : Type} {pf : List Char → Option φ} {there : List Char → Bool} {as : List (List Char)} {c0 c1 : Conf φ}
    (h0 : c0.cnf = []) (h : inject pf there as c0 = .run c1) :
    ∃ f os, as.getLast? = some f ∧ there f = true ∧ c1.cnf = f ∧ Line f as os ∧ c1.help = false ∧ c1.version = false ∧
      ((∀ o ∈ os, o.Fits) → MeansAll pf os { c0 with cnf := f } c1) := by
  unfold inject at h
  cases hl : as.getLast? with
  | none =>
    cases List.getLast?_eq_none_iff.mp hl
    simp only [List.getLast?_nil, loop] at h
    split at h
    · cases h
    split at h
    · cases h
    cases h
  | some f =>
    rw [hl] at h
    dsimp only at h
    cases hc : loop pf as { c0 with cnf := f } with
    | none => rw [hc] at h; cases h
    | some c =>
      rw [hc] at h
      dsimp only at h
      split at h
      · cases h
      rename_i hh
      split at h
      · cases h
      rename_i hv
      split at h
      · cases h
      split at h
      · cases h
        rename_i ht
        obtain ⟨os, hl, hm, e⟩ := loop_line _ _ hc
        dsimp only at e hl
        rw [e] at ht
        exact ⟨f, os, rfl, ht, e, hl, by simpa using hh, by simpa using hv, hm⟩
      · cases h

/-- The default configuration (src/config.rs:95-137), with natural numbers in place of `f64`. -/
def exConf : Conf Nat :=
  { cl := 0, crl := 5, ecl := 64, evl := 0, evo := 20000, timeout := 5000, cdr := 95, cr1 := 20, cr2 := 5, rlt := 2, vdr := 96, vds := 0,
    cnf := [], dir := ['.'], proof := ['p'], result := [], noColor := false, quiet := false, certify := false, heatmap := false,
    journal := false, help := false, version := false }

/-- `splr -q --ecl 7 --proof q -t 9 a`, where the file `a` exists. -/
def exLine : List (List Char) :=
  [['-', 'q'], ['-', '-', 'e', 'c', 'l'], ['7'], ['-', '-', 'p', 'r', 'o', 'o', 'f'], ['q'], ['-', 't'], ['9'], ['a']]

def exOpts : List Opt := [.quiet false, .ecl ['7'], .proof true ['q'], .timeout false ['9']]

example : inject parseUsize (fun f => f == ['a']) exLine exConf =
    .run { exConf with cnf := ['a'], quiet := true, ecl := 7, proof := ['q'], timeout := 9 } := by
  have hm : MeansAll parseUsize exOpts { exConf with cnf := ['a'] }
      { exConf with cnf := ['a'], quiet := true, ecl := 7, proof := ['q'], timeout := 9 } :=
    .cons rfl (.cons ⟨7, by decide, rfl⟩ (.cons rfl (.cons ⟨9, by decide, rfl⟩ (.nil _))))
  have := C60_documented_partial (there := fun f => f == ['a']) (os := exOpts) (by exact ⟨by simp, by simp⟩ : IsFile ['a']) hm
    (by simp [exOpts, Opt.Fits])
  exact this

example : inject parseUsize (fun _ => false) [['-', 'q'], ['-', 'h']] exConf = .help :=
  C60_help (os := [.quiet false, .help false]) (l := false) rfl (.cons rfl (.cons rfl (.nil _))) (by simp [Opt.Fits]) (by simp)

/-- Two lines, one of the form that the help text allows and one that names no file, and what becomes of them: `splr --crl 65541 a` sets the threshold to 5,
and `splr -t 9`, which names no file, takes `9` for the file. -/
theorem C60_violated :
    (∃ c, inject parseUsize (fun f => f == ['a']) [['-', '-', 'c', 'r', 'l'], ['6', '5', '5', '4', '1'], ['a']] exConf = .run c ∧
      parseUsize ['6', '5', '5', '4', '1'] = some 65541 ∧ c.crl = 5) ∧
    (∃ c, inject parseUsize (fun f => f == ['9']) [['-', 't'], ['9']] exConf = .run c ∧ c.timeout = 9 ∧ c.cnf = ['9']) ∧
    inject parseUsize (fun _ => false) [['-', 't'], ['9']] exConf = .missing ['9'] :=
  ⟨⟨{ exConf with cnf := ['a'], crl := 5 }, by rfl, by decide, rfl⟩, ⟨{ exConf with cnf := ['9'], timeout := 9 }, by rfl, rfl, rfl⟩, by rfl⟩

end Splr.Cli
