import Verif.Model.Cli
/-!
# The documented command line (specification)

From the text of `splr --help` (src/config.rs:325-395); `--cdr` and `--vds` are in that text only with other features.
-/
namespace Splr.Cli
open Text

/-- A flag or an option of the help text, as it is written; the argument of an option is its text. -/
inductive Opt where
  | noColor (long : Bool)
  | quiet (long : Bool)
  | certify (long : Bool)
  | heatmap (long : Bool)
  | journal (long : Bool)
  | help (long : Bool)
  | version (long : Bool)
  | cl (v : List Char)
  | crl (v : List Char)
  | cr1 (v : List Char)
  | cr2 (v : List Char)
  | ecl (v : List Char)
  | evl (v : List Char)
  | evo (v : List Char)
  | rlt (v : List Char)
  | vdr (v : List Char)
  | cdr (v : List Char)
  | vds (v : List Char)
  | dir (long : Bool) (v : List Char)
  | proof (long : Bool) (v : List Char)
  | result (long : Bool) (v : List Char)
  | timeout (long : Bool) (v : List Char)

/-- How it is written. -/
def Opt.words : Opt → List (List Char)
  | .noColor l => [if l then ['-', '-', 'n', 'o', '-', 'c', 'o', 'l', 'o', 'r'] else ['-', 'C']]
  | .quiet l => [if l then ['-', '-', 'q', 'u', 'i', 'e', 't'] else ['-', 'q']]
  | .certify l => [if l then ['-', '-', 'c', 'e', 'r', 't', 'i', 'f', 'y'] else ['-', 'c']]
  | .heatmap l => [if l then ['-', '-', 'h', 'e', 'a', 't', 'm', 'a', 'p'] else ['-', 'H']]
  | .journal l => [if l then ['-', '-', 'j', 'o', 'u', 'r', 'n', 'a', 'l'] else ['-', 'j']]
  | .help l => [if l then ['-', '-', 'h', 'e', 'l', 'p'] else ['-', 'h']]
  | .version l => [if l then ['-', '-', 'v', 'e', 'r', 's', 'i', 'o', 'n'] else ['-', 'V']]
  | .cl v => [['-', '-', 'c', 'l'], v]
  | .crl v => [['-', '-', 'c', 'r', 'l'], v]
  | .cr1 v => [['-', '-', 'c', 'r', '1'], v]
  | .cr2 v => [['-', '-', 'c', 'r', '2'], v]
  | .ecl v => [['-', '-', 'e', 'c', 'l'], v]
  | .evl v => [['-', '-', 'e', 'v', 'l'], v]
  | .evo v => [['-', '-', 'e', 'v', 'o'], v]
  | .rlt v => [['-', '-', 'r', 'l', 't'], v]
  | .vdr v => [['-', '-', 'v', 'd', 'r'], v]
  | .cdr v => [['-', '-', 'c', 'd', 'r'], v]
  | .vds v => [['-', '-', 'v', 'd', 's'], v]
  | .dir l v => [if l then ['-', '-', 'd', 'i', 'r'] else ['-', 'o'], v]
  | .proof l v => [if l then ['-', '-', 'p', 'r', 'o', 'o', 'f'] else ['-', 'p'], v]
  | .result l v => [if l then ['-', '-', 'r', 'e', 's', 'u', 'l', 't'] else ['-', 'r'], v]
  | .timeout l v => [if l then ['-', '-', 't', 'i', 'm', 'e', 'o', 'u', 't'] else ['-', 't'], v]

/-- `Means pf o c c'`: what it means: one field of the configuration gets the value that is written. -/
def Opt.Means {φ : Type} (pf : List Char → Option φ) (o : Opt) (c c' : Conf φ) : Prop :=
  match o with
  | .noColor _ => c' = { c with noColor := true }
  | .quiet _ => c' = { c with quiet := true }
  | .certify _ => c' = { c with certify := true }
  | .heatmap _ => c' = { c with heatmap := true }
  | .journal _ => c' = { c with journal := true }
  | .help _ => c' = { c with help := true }
  | .version _ => c' = { c with version := true }
  | .cl v => ∃ n, parseUsize v = some n ∧ c' = { c with cl := n }
  | .crl v => ∃ n, parseUsize v = some n ∧ c' = { c with crl := n }
  | .cr1 v => ∃ t, pf v = some t ∧ c' = { c with cr1 := t }
  | .cr2 v => ∃ t, pf v = some t ∧ c' = { c with cr2 := t }
  | .ecl v => ∃ n, parseUsize v = some n ∧ c' = { c with ecl := n }
  | .evl v => ∃ n, parseUsize v = some n ∧ c' = { c with evl := n }
  | .evo v => ∃ n, parseUsize v = some n ∧ c' = { c with evo := n }
  | .rlt v => ∃ t, pf v = some t ∧ c' = { c with rlt := t }
  | .vdr v => ∃ t, pf v = some t ∧ c' = { c with vdr := t }
  | .cdr v => ∃ t, pf v = some t ∧ c' = { c with cdr := t }
  | .vds v => ∃ t, pf v = some t ∧ c' = { c with vds := t }
  | .dir _ v => c' = { c with dir := v }
  | .proof _ v => c' = { c with proof := v }
  | .result _ v => c' = { c with result := v }
  | .timeout _ v => ∃ t, pf v = some t ∧ c' = { c with timeout := t }

/-- One after the other: a later one overrides an earlier one. -/
inductive MeansAll {φ : Type} (pf : List Char → Option φ) : List Opt → Conf φ → Conf φ → Prop
  | nil (c : Conf φ) : MeansAll pf [] c c
  | cons {o : Opt} {os : List Opt} {c c1 c2 : Conf φ} (h : o.Means pf c c1) (hs : MeansAll pf os c1 c2) : MeansAll pf (o :: os) c c2

/-- `Line f as os`: the words `as` are the options `os` in this order, with the word `f` any number of times between them. -/
inductive Line (f : List Char) : List (List Char) → List Opt → Prop
  | nil : Line f [] []
  | opt {o : Opt} {as : List (List Char)} {os : List Opt} (h : Line f as os) : Line f (o.words ++ as) (o :: os)
  | file {as : List (List Char)} {os : List Opt} (h : Line f as os) : Line f (f :: as) os

/-- The name of a file: not empty, and it does not look like an option. -/
def IsFile (f : List Char) : Prop := f ≠ [] ∧ f.head? ≠ some '-'

end Splr.Cli
