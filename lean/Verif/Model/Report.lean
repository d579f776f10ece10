import Verif.Model.Files
/-!
# The comment lines of the answer file: src/bin/splr.rs:146-216 (`save_result`) and 225-407 (`report`)

The texts of the numbers are arguments (`Stats`): formatting of numbers is not modelled. The lines are given without the line feed at their end.
-/
namespace Splr.Report

/-- `format!("{:<n}", s)`: fill up with spaces on the right, to `n` characters. -/
def padRight (n : Nat) (s : List Char) : List Char := s ++ List.replicate (n - s.length) ' '

/-- The texts of the numbers in the report; `keys`: module, key and value of the properties listed at the end (src/bin/splr.rs:305-386);
`heat`: first number and columns of the rows of the heat map (src/bin/splr.rs:387-404). -/
structure Stats where
  version : List Char
  vars : List Char
  clauses : List Char
  num : Nat → List Char
  keys : List (List Char × List Char × List Char)
  heat : List (List Char × List Char)

/-- src/bin/splr.rs:229-241 the line with the name of the file -/
def nameLine (s : Stats) (path : List Char) : List Char :=
  "c ".toList ++ padRight 43 ((Files.fileName path).getD "file with strange chars".toList) ++ ", #var:".toList ++ s.vars ++ ", #cls:".toList ++ s.clauses

/-- src/bin/splr.rs:242-304 the lines with the statistics -/
def statLines (s : Stats) : List (List Char) :=
  ["c  #conflict:".toList ++ s.num 0 ++ ", #decision:".toList ++ s.num 1 ++ ", #propagate:".toList ++ s.num 2 ++ ",".toList,
   "c   Assignment|#rem:".toList ++ s.num 3 ++ ", #fix:".toList ++ s.num 4 ++ ", #elm:".toList ++ s.num 5 ++ ", prg%:".toList ++ s.num 6 ++ ",".toList,
   "c       Clause|Remv:".toList ++ s.num 7 ++ ", LBD2:".toList ++ s.num 8 ++ ", BinC:".toList ++ s.num 9 ++ ", Perm:".toList ++ s.num 10 ++ ",".toList,
   "c     Conflict|entg:".toList ++ s.num 11 ++ ", cLvl:".toList ++ s.num 12 ++ ", bLvl:".toList ++ s.num 13 ++ ", /cpr:".toList ++ s.num 14 ++ ",".toList,
   "c      Learing|avrg:".toList ++ s.num 15 ++ ", trnd:".toList ++ s.num 16 ++ ", #RST:".toList ++ s.num 17 ++ ", /dpc:".toList ++ s.num 18 ++ ",".toList,
   "c         misc|vivC:".toList ++ s.num 19 ++ ", subC:".toList ++ s.num 20 ++ ", core:".toList ++ s.num 21 ++ ", /ppc:".toList ++ s.num 22 ++ ",".toList,
   "c     Strategy|mode:  generic, time:".toList ++ s.num 23 ++ ",".toList,
   "c ".toList]

/-- src/bin/splr.rs:305-386 one property -/
def keyLine (k : List Char × List Char × List Char) : List Char :=
  "c   ".toList ++ k.1 ++ "::".toList ++ padRight (if k.1 = "state".toList then 28 else 27) k.2.1 ++ k.2.2

/-- src/bin/splr.rs:387-404 the rows of the heat map, from row `i` on -/
def heatLines : Nat → List (List Char × List Char) → List (List Char)
  | _, [] => []
  | i, [(a, b)] => ["c   LBD>".toList ++ Nat.toDigits 10 i ++ " (".toList ++ a ++ "): ".toList ++ b]
  | i, (a, b) :: rs => ("c   LBD ".toList ++ Nat.toDigits 10 (i + 1) ++ " (".toList ++ a ++ "): ".toList ++ b) :: heatLines (i + 1) rs

/-- src/bin/splr.rs:225-407 `report` -/
def report (s : Stats) (path : List Char) : List (List Char) := nameLine s path :: (statLines s ++ (s.keys.map keyLine ++ (heatLines 0 s.heat ++ ["c ".toList])))

/-- src/bin/splr.rs:146-151 all the comment lines of the answer file of a satisfiable problem; `path`: the path of the input as given -/
def commentsSat (s : Stats) (path : List Char) : List (List Char) :=
  ("c This file was generated by splr-".toList ++ s.version ++ " for ".toList ++ path) :: "c ".toList :: report s path

/-- src/bin/splr.rs:180-188 those of an unsatisfiable problem -/
def commentsUnsat (s : Stats) (path : List Char) : List (List Char) :=
  ("c The empty assignment set generated by splr-".toList ++ s.version ++ " for ".toList ++ path) :: "c ".toList :: report s path

/-- src/bin/splr.rs:206-214 those of an unsolved problem; `e`: the text of the error -/
def commentsErr (s : Stats) (path e : List Char) : List (List Char) :=
  ("c An assignment set generated by splr-".toList ++ s.version ++ " for ".toList ++ path) :: "c ".toList :: report s path ++ ["c ".toList ++ e]

end Splr.Report
