import Verif.Spec.Text
/-!
# The command line: src/config.rs:141-306 `inject_from_args`

Arguments are lists of characters. `φ` stands for `f64`, and `pf` for `str::parse::<f64>`.
-/
namespace Splr.Cli
open Text

/-- The fields of src/config.rs:8-93 `Config` that the command line sets, with the local variables `help` and `version` of `inject_from_args`. -/
structure Conf (φ : Type) where
  cl : Nat
  crl : Nat
  ecl : Nat
  evl : Nat
  evo : Nat
  timeout : φ
  cdr : φ
  cr1 : φ
  cr2 : φ
  rlt : φ
  vdr : φ
  vds : φ
  cnf : List Char
  dir : List Char
  proof : List Char
  result : List Char
  noColor : Bool
  quiet : Bool
  certify : Bool
  heatmap : Bool
  journal : Bool
  help : Bool
  version : Bool

/-- src/config.rs:162-172 a long flag; `none`: not in the list `flags`. -/
def setLong {φ : Type} (n : List Char) (c : Conf φ) : Option (Conf φ) :=
  if n = ['n', 'o', '-', 'c', 'o', 'l', 'o', 'r'] then some { c with noColor := true }
  else if n = ['q', 'u', 'i', 'e', 't'] then some { c with quiet := true }
  else if n = ['c', 'e', 'r', 't', 'i', 'f', 'y'] then some { c with certify := true }
  else if n = ['h', 'e', 'a', 't', 'm', 'a', 'p'] then some { c with heatmap := true }
  else if n = ['j', 'o', 'u', 'r', 'n', 'a', 'l'] then some { c with journal := true }
  else if n = ['h', 'e', 'l', 'p'] then some { c with help := true }
  else if n = ['v', 'e', 'r', 's', 'i', 'o', 'n'] then some { c with version := true }
  else none

/-- src/config.rs:177-184; `none`: the panic for `stat`. `val as u16` keeps the low 16 bits. -/
def setUsize {φ : Type} (n : List Char) (v : Nat) (c : Conf φ) : Option (Conf φ) :=
  if n = ['c', 'l'] then some { c with cl := v }
  else if n = ['c', 'r', 'l'] then some { c with crl := v % 65536 }
  else if n = ['e', 'c', 'l'] then some { c with ecl := v }
  else if n = ['e', 'v', 'l'] then some { c with evl := v }
  else if n = ['e', 'v', 'o'] then some { c with evo := v }
  else none

/-- src/config.rs:194-203 -/
def setF64 {φ : Type} (n : List Char) (v : φ) (c : Conf φ) : Option (Conf φ) :=
  if n = ['t', 'i', 'm', 'e', 'o', 'u', 't'] then some { c with timeout := v }
  else if n = ['c', 'd', 'r'] then some { c with cdr := v }
  else if n = ['c', 'r', '1'] then some { c with cr1 := v }
  else if n = ['c', 'r', '2'] then some { c with cr2 := v }
  else if n = ['r', 'l', 't'] then some { c with rlt := v }
  else if n = ['v', 'd', 'r'] then some { c with vdr := v }
  else if n = ['v', 'd', 's'] then some { c with vds := v }
  else none

/-- src/config.rs:213-218 -/
def setPath {φ : Type} (n v : List Char) (c : Conf φ) : Option (Conf φ) :=
  if n = ['d', 'i', 'r'] then some { c with dir := v }
  else if n = ['p', 'r', 'o', 'o', 'f'] then some { c with proof := v }
  else if n = ['r', 'e', 's', 'u', 'l', 't'] then some { c with result := v }
  else none

/-- src/config.rs:233-243 a short flag. -/
def setShort {φ : Type} (n : List Char) (c : Conf φ) : Option (Conf φ) :=
  if n = ['C'] then some { c with noColor := true }
  else if n = ['q'] then some { c with quiet := true }
  else if n = ['c'] then some { c with certify := true }
  else if n = ['j'] then some { c with journal := true }
  else if n = ['H'] then some { c with heatmap := true }
  else if n = ['h'] then some { c with help := true }
  else if n = ['V'] then some { c with version := true }
  else none

/-- src/config.rs:245-254 a short option with its argument; `none`: `-t` without a number. -/
def setShortOpt {φ : Type} (pf : List Char → Option φ) (n v : List Char) (c : Conf φ) : Option (Conf φ) :=
  if n = ['o'] then some { c with dir := v }
  else if n = ['p'] then some { c with proof := v }
  else if n = ['r'] then some { c with result := v }
  else if n = ['t'] then (pf v).map fun t => { c with timeout := t }
  else none

/-- src/config.rs:155-158 the names of the options -/
def usizeNames : List (List Char) := [['c', 'l'], ['c', 'r', 'l'], ['s', 't', 'a', 't'], ['e', 'c', 'l'], ['e', 'v', 'l'], ['e', 'v', 'o']]
def f64Names : List (List Char) := [['t', 'i', 'm', 'e', 'o', 'u', 't'], ['c', 'd', 'r'], ['c', 'r', '1'], ['c', 'r', '2'], ['r', 'l', 't'], ['v', 'd', 'r'], ['v', 'd', 's']]
def pathNames : List (List Char) := [['d', 'i', 'r'], ['p', 'r', 'o', 'o', 'f'], ['r', 'e', 's', 'u', 'l', 't']]

/-- src/config.rs:151-266 the loop over the arguments; `none`: a panic. -/
def loop {φ : Type} (pf : List Char → Option φ) : List (List Char) → Conf φ → Option (Conf φ)
  | [], c => some c
  | ('-' :: '-' :: n) :: as, c =>
    if '=' ∈ n then none
    else
      match setLong n c with
      | some c1 => loop pf as c1
      | none =>
        if n ∈ usizeNames then
          match as with
          | [] => none
          | v :: as1 => (parseUsize v).bind fun k => (setUsize n k c).bind fun c1 => loop pf as1 c1
        else if n ∈ f64Names then
          match as with
          | [] => none
          | v :: as1 => (pf v).bind fun k => (setF64 n k c).bind fun c1 => loop pf as1 c1
        else if n ∈ pathNames then
          match as with
          | [] => none
          | v :: as1 => (setPath n v c).bind fun c1 => loop pf as1 c1
        else none
  | ('-' :: n) :: as, c =>
    match setShort n c with
    | some c1 => loop pf as c1
    | none =>
      if n ∈ [['o'], ['p'], ['r'], ['t']] then
        match as with
        | [] => none
        | v :: as1 => (setShortOpt pf n v c).bind fun c1 => loop pf as1 c1
      else none
  | a :: as, c => if c.cnf ≠ a then none else loop pf as c

/-- What `inject_from_args` ends with: a panic, an exit after a message, or the configuration. -/
inductive Out (φ : Type) where
  | panic
  | help
  | version
  | noFile
  | missing (file : List Char)
  | run (c : Conf φ)

/-- src/config.rs:141-306 `inject_from_args`, on the arguments after the name of the program. `there`: does the file exist? -/
def inject {φ : Type} (pf : List Char → Option φ) (there : List Char → Bool) (as : List (List Char)) (c : Conf φ) : Out φ :=
  match loop pf as (match as.getLast? with | some f => { c with cnf := f } | none => c) with
  | none => .panic
  | some c => if c.help then .help else if c.version then .version else if c.cnf = [] then .noFile else if there c.cnf then .run c else .missing c.cnf

end Splr.Cli
