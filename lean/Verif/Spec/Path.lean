/-!
# Where a path leads (specification)

The directory tree of POSIX without links: a place is the list of names from the root.
-/
namespace Splr.Path

/-- The parts of a text between slashes. -/
def parts : List Char → List (List Char)
  | [] => [[]]
  | c :: cs => if c = '/' then [] :: parts cs else
    match parts cs with
    | [] => [[c]]
    | w :: ws => (c :: w) :: ws

/-- One part of a path: an empty part and `.` stay, `..` goes up, a name goes down. -/
def walk (at_ : List (List Char)) (w : List Char) : List (List Char) :=
  if w = [] ∨ w = ['.'] then at_ else if w = ['.', '.'] then at_.dropLast else at_ ++ [w]

/-- The place a path leads to, seen from the directory `cwd`. -/
def locate (cwd : List (List Char)) (p : List Char) : List (List Char) :=
  (parts p).foldl walk (if p.head? = some '/' then [] else cwd)

/-- The files: what is at a place (directories are not listed). -/
abbrev Disk := List (List Char) → Option (List Char)

/-- The disk after a file was created or overwritten. -/
def Disk.write (d : Disk) (at_ : List (List Char)) (text : List Char) : Disk := fun l => if l = at_ then some text else d l

end Splr.Path
