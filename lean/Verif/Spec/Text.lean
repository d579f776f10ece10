/-!
# Text: decimal integers, lines and words

The behaviour of the Rust standard library that the readers and writers of splr rely on: `format!("{}", i32)`,
`str::parse::<i32>` / `::<usize>`, `BufRead::read_line`, `str::split_whitespace`, `str::split(' ')`. Text is a list of
characters. Simplification: white space is the ASCII white space.
-/
namespace Splr.Text

/-- one decimal digit -/
def digit (d : Nat) : Char := Char.ofNat (48 + d)

/-- Decimal numeral of a natural number (`format!("{}", n)`). -/
def showNat (n : Nat) : List Char :=
  if n < 10 then [digit n] else showNat (n / 10) ++ [digit (n % 10)]
termination_by n
decreasing_by omega

/-- `format!("{}", i)` for a signed integer. -/
def showInt : Int → List Char
  | .ofNat n => showNat n
  | .negSucc n => '-' :: showNat (n + 1)

/-- value of a decimal digit -/
def digitVal (c : Char) : Option Nat :=
  if 48 ≤ c.toNat ∧ c.toNat ≤ 57 then some (c.toNat - 48) else none

/-- read digits onto an accumulator -/
def readDigits : Nat → List Char → Option Nat
  | acc, [] => some acc
  | acc, c :: cs => match digitVal c with
    | some d => readDigits (acc * 10 + d) cs
    | none => none

/-- a non-empty digit string -/
def readNat : List Char → Option Nat
  | [] => none
  | cs => readDigits 0 cs

/-- `str::parse::<i32>()`: optional sign, digits, range check; `none` = `Err`. -/
def parseI32 : List Char → Option Int
  | '-' :: cs => match readNat cs with
    | some n => if n ≤ 2147483648 then some (-(n : Int)) else none
    | none => none
  | '+' :: cs => match readNat cs with
    | some n => if n ≤ 2147483647 then some n else none
    | none => none
  | cs => match readNat cs with
    | some n => if n ≤ 2147483647 then some n else none
    | none => none

/-- `str::parse::<usize>()` (64 bit) -/
def parseUsize : List Char → Option Nat
  | '+' :: cs => match readNat cs with
    | some n => if n < 18446744073709551616 then some n else none
    | none => none
  | cs => match readNat cs with
    | some n => if n < 18446744073709551616 then some n else none
    | none => none

/-- white space (ASCII part of `char::is_whitespace`) -/
def isWs (c : Char) : Bool := c == ' ' || c == '\t' || c == '\n' || c == '\r' || c == '\x0b' || c == '\x0c'

/-- Repeated `read_line`: the lines with their line ends. -/
def readLines : List Char → List (List Char)
  | [] => []
  | c :: cs =>
    if c = '\n' then ['\n'] :: readLines cs
    else match readLines cs with
      | [] => [[c]]
      | l :: ls => (c :: l) :: ls

/-- `split_whitespace`: the maximal runs of non-blank characters. -/
def words : List Char → List (List Char)
  | [] => []
  | c :: cs =>
    if isWs c then words cs
    else match cs with
      | [] => [[c]]
      | d :: cs' =>
        if isWs d then [c] :: words (d :: cs')
        else match words (d :: cs') with
          | [] => [[c]]
          | w :: ws => (c :: w) :: ws

/-- `split(' ')`: the pieces between single spaces (possibly empty). -/
def splitSpace : List Char → List (List Char)
  | [] => [[]]
  | c :: cs =>
    if c = ' ' then [] :: splitSpace cs
    else match splitSpace cs with
      | [] => [[c]]
      | w :: ws => (c :: w) :: ws

/-- `starts_with` -/
def startsWith (pre : List Char) (s : List Char) : Bool := pre.isPrefixOf s

/-- an integer representable as `i32`, excluding `i32::MIN` (whose negation overflows) -/
def IsI32 (i : Int) : Prop := -2147483648 < i ∧ i ≤ 2147483647

end Splr.Text
