import Verif.Spec.Path
import Verif.Model.Cli
import Verif.Model.QueueMain
/-!
# The files of `splr` and `dmcr`: names and places

`std::path` on Unix: `Path::components`, `Path::file_name`, `PathBuf::join`. Not modelled: links, permissions and full disks (every file can be created), names that
are not UTF-8.
-/
namespace Splr.Files
open Path Cli

/-- `std::path::Component` without the root (which only decides where the path starts). -/
inductive Comp where
  | root
  | cur
  | parent
  | normal (n : List Char)
deriving DecidableEq

/-- `Path::components`: empty parts and `.` are dropped, but a `.` at the beginning is kept. -/
def components (p : List Char) : List Comp :=
  (if p.head? = some '/' then [.root] else if (parts p).head? = some ['.'] then [.cur] else []) ++
    (parts p).filterMap fun w =>
      if w = [] ∨ w = ['.'] then none else if w = ['.', '.'] then some .parent else some (.normal w)

/-- `Path::file_name`: the last component if it is a name. -/
def fileName (p : List Char) : Option (List Char) :=
  match (components p).getLast? with
  | some (.normal n) => some n
  | _ => none

/-- `PathBuf::join`: an absolute path replaces; a slash is put between if there is none. -/
def join (a b : List Char) : List Char :=
  if b.head? = some '/' then b
  else if a = [] ∨ a.getLast? = some '/' then a ++ b
  else a ++ '/' :: b

/-- `format!("ans_{}", ..)`: src/bin/splr.rs:57-60, src/bin/dmcr.rs:139-145 -/
def ansName (n : List Char) : List Char := 'a' :: 'n' :: 's' :: '_' :: n

/-- src/config.rs:4 `CERTIFICATION_DEFAULT_FILENAME` -/
def proofDefault : List Char := ['p', 'r', 'o', 'o', 'f', '.', 'd', 'r', 'a', 't']

/-- src/bin/splr.rs:55-62 `ans_file`; outer `none`: `unwrap` of a missing file name; inner `none`: the answer goes to the standard output. -/
def answerPath {φ : Type} (c : Conf φ) : Option (Option (List Char)) :=
  if c.result = ['-'] then some none
  else if c.result = [] then (fileName c.cnf).map fun n => some (join c.dir (ansName n))
  else some (some (join c.dir c.result))

/-- src/cdb/unsat_certificate.rs:52-56 `instantiate` -/
def proofPath {φ : Type} (c : Conf φ) : Option (List Char) := if c.certify then some (join c.dir c.proof) else none

/-- src/bin/dmcr.rs:138-146: the answer file that `dmcr` opens; `none`: `unwrap` of a missing file name. -/
def dmcrPath (assign : Option (List Char)) (problem : List Char) : Option (List Char) :=
  match assign with
  | some a => some a
  | none => (fileName problem).map ansName

/-- How a call of `splr` went, and the disk afterwards. -/
inductive Ran where
  | missing
  | aborted
  | panics
  | goesOn
  | exits (code : Nat) (d : Disk)

/-- src/bin/splr.rs:43-113 `main`, with src/config.rs:314-321 (the file must exist), after the arguments are read. `run`: the solver on the text of the file (Verif/Model/QueueMain.lean); `left`: what is in the
certificate file if the answer is not UNSAT. The certificate file is emptied when the solver is built (src/solver/build.rs:233-236), the answer is written at the
end. Simplification: where input, answer and certificate are the same file, the later one simply replaces the earlier one. -/
def splrOn {φ : Type} (run : List Char → Ending) (left : List Char) (cwd : List (List Char)) (c : Conf φ) (d : Disk) : Ran :=
  match d (locate cwd c.cnf) with
  | none => .missing
  | some text =>
    match answerPath c with
    | none => .panics
    | some out =>
      if c.proof ≠ proofDefault ∧ c.certify = false then .aborted
      else
        match run text with
        | .panics => .panics
        | .goesOn => .goesOn
        | .exits code answer proof =>
          let d1 := match proofPath c with
            | some p => d.write (locate cwd p) (proof.getD left)
            | none => d
          let d2 := match out, answer with
            | some p, some a => d1.write (locate cwd p) a
            | _, _ => d1
          .exits code d2

/-- src/bin/dmcr.rs:124-206 `main` on the disk; `none`: it waits for an answer on the standard input (src/bin/dmcr.rs:169-185). -/
def dmcrOn (cwd : List (List Char)) (assign : Option (List Char)) (problem : List Char) (d : Disk) : Option Dmcr :=
  match d (locate cwd problem), dmcrPath assign problem with
  | some cnf, some p => (d (locate cwd p)).map (dmcr cnf)
  | _, _ => some .panic

end Splr.Files
