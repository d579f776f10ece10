import Verif.Spec.Text
/-! Specification of a DRAT text file: a sequence of clause additions and deletions, one per line. -/
namespace Splr.Cert
open Text

/-- One step of a proof. -/
inductive Rec where
  | add (c : List Int)
  | del (c : List Int)
deriving DecidableEq, Repr

/-- Literals up to the terminating 0, which must be the last word of the line. -/
def readLits : List (List Char) → Option (List Int)
  | [] => none
  | w :: ws => match parseI32 w with
    | none => none
    | some i =>
      if i = 0 then (if ws = [] then some [] else none)
      else match readLits ws with
        | none => none
        | some is => some (i :: is)

/-- A line is `l1 ... ln 0` (addition) or `d l1 ... ln 0` (deletion). -/
def readRec (line : List Char) : Option Rec :=
  match words line with
  | ['d'] :: ws => (readLits ws).map .del
  | ws => (readLits ws).map .add

/-- Read a whole proof file. -/
def readProof (text : List Char) : Option (List Rec) := (readLines text).mapM readRec

end Splr.Cert
