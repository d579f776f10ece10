/-!
# The header of the progress report: src/state.rs:807-838

A Rust `String` is UTF-8: its length is in bytes, the width of a format is in characters.
-/
namespace Splr

/-- `String::len` -/
def utf8Len (cs : List Char) : Nat := (cs.map Char.utf8Size).sum

/-- The characters of the first `n` bytes; `none`: there is no boundary between characters at `n`. -/
def takeBytes : Nat → List Char → Option (List Char)
  | 0, _ => some []
  | _ + 1, [] => none
  | n + 1, c :: cs => if c.utf8Size ≤ n + 1 then (takeBytes (n + 1 - c.utf8Size) cs).map (c :: ·) else none

/-- `String::truncate(n)`: nothing if the string is shorter, a panic if `n` is not a boundary. -/
def truncateTo (n : Nat) (cs : List Char) : Option (List Char) := if n ≤ utf8Len cs then takeBytes n cs else some cs

/-- src/state.rs:810-813 `vc`: the numbers of variables and clauses -/
def vcOf (nv nc : Nat) : List Char := Nat.toDigits 10 nv ++ ',' :: Nat.toDigits 10 nc

/-- src/state.rs:807-838 `Display for State`, without the time at the end; `none`: a panic. -/
def headerOf (nv nc : Nat) (fname : List Char) : Option (List Char) :=
  let vc := vcOf nv nc
  let vclen := utf8Len vc
  let fname := if 59 ≤ utf8Len fname then (if vclen ≤ 58 then truncateTo (58 - vclen) fname else none) else some fname
  fname.bind fun fname =>
    let fnlen := utf8Len fname
    if 59 < vclen + fnlen + 1 then some (fname ++ List.replicate (59 - fname.length) ' ')
    else some (fname ++ (List.replicate (59 - fnlen - vc.length) ' ' ++ vc))

end Splr
