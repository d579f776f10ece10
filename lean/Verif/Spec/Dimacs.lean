import Verif.Spec.Text
/-! Specification of a DIMACS CNF file with one clause per line. -/
namespace Splr.Dimacs
open Text

/-- A line of the file: a comment, or a clause with its layout (blanks before it, after each literal, after the 0). -/
inductive Line where
  | comment (text : List Char)
  | clause (pre : List Char) (lits : List (Int × List Char)) (post : List Char)

/-- blanks that do not end a line -/
def Blank (s : List Char) : Prop := ∀ c ∈ s, c = ' ' ∨ c = '\t' ∨ c = '\r'

/-- well-formedness of a line -/
def Line.Wf : Line → Prop
  | .comment t => '\n' ∉ t
  | .clause pre lits post => Blank pre ∧ Blank post ∧
      ∀ p ∈ lits, p.1 ≠ 0 ∧ IsI32 p.1 ∧ Blank p.2 ∧ p.2 ≠ []

/-- the text of a line -/
def Line.text : Line → List Char
  | .comment t => 'c' :: t ++ ['\n']
  | .clause pre lits post => pre ++ (lits.flatMap fun p => showInt p.1 ++ p.2) ++ '0' :: post ++ ['\n']

/-- the clauses written in the lines -/
def clausesOf : List Line → List (List Int)
  | [] => []
  | .comment _ :: ls => clausesOf ls
  | .clause _ lits _ :: ls => lits.map (·.1) :: clausesOf ls

/-- A whole file: comments, the header, the body. -/
def fileText (pre : List (List Char)) (nv nc : Nat) (body : List Line) : List Char :=
  (pre.flatMap fun t => (Line.comment t).text) ++ "p cnf ".toList ++ showNat nv ++ [' '] ++ showNat nc ++ ['\n'] ++
    body.flatMap Line.text

end Splr.Dimacs
