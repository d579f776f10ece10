import Verif.Spec.Text
/-!
# What is seen of the process `splr` (specification)
-/
namespace Splr.Process

/-- The answers. -/
inductive Status where
  | sat
  | unsat
  | unknown
deriving DecidableEq, Repr

/-- What is printed on the standard output: a line with the answer (`s SATISFIABLE: …`), the line `s UNKNOWN (TimeOut): …`, a part of the
text of the answer (if it is not written to a file), any other line. -/
inductive Item where
  | status (r : Status)
  | timeOut
  | text (t : List Char)
  | other
deriving DecidableEq, Repr

def Item.status? : Item → Option Status
  | .status r => some r
  | _ => none

def Item.chars : Item → List Char
  | .text t => t
  | _ => []

/-- The answers printed, in order. -/
def statuses (out : List Item) : List Status := out.filterMap Item.status?

/-- The text of the answer on the standard output. -/
def texts (out : List Item) : List Char := out.flatMap Item.chars

end Splr.Process
