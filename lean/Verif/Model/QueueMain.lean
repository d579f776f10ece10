import Verif.Model.QueueWhole
import Verif.Model.QueueReach
import Verif.Model.Main
import Verif.Model.CertFile
/-!
# The program `splr` on the most detailed model of the solver: from the text of the file to the texts it writes

As Verif/Model/Main.lean, with the solver of Verif/Model/QueueWhole.lean and with the certificate file. Not modelled: the operating system (files are created and written
without errors), the timer (Verif/Model/Process.lean) and the lines printed on the way.
-/
namespace Splr
open QStk Stage

/-- src/solver/build.rs:290-320 the loop of `inject` over the lines of a file, see `Sol.loadLines`. -/
def SolQ.loadLines : SolQ → List (List Char) → Option (SolQ × Option ApiErr)
  | y, [] => some (y, .none)
  | y, l :: ls =>
    match Dimacs.lineAct l with
    | .skip => y.loadLines ls
    | .empty => some (y, some .emptyClause)
    | .clause c =>
      match y.addUnchecked (c.map Lit.ofInt) with
      | .none => .none
      | some (z, .emptyClause) => some (z, some .emptyClause)
      | some (z, _) => z.loadLines ls

/-- The result of `Solver::build`, see `Loaded`; with the solver that is given up. -/
inductive LoadedQ where
  | ok (y : SolQ)
  | emptyClause (y : SolQ)
  | failed

/-- src/solver/build.rs:233-236 `Solver::build` on the text of a file, see `Sol.load`. `act`: the activities while building. -/
def SolQ.load (act : Nat → Nat → Nat → Bool) (text : List Char) : LoadedQ :=
  match Dimacs.openCnf (Text.readLines text) with
  | .ok nv _ rest =>
    match (SolQ.new nv act).loadLines rest with
    | some (y, .none) => .ok y
    | some (y, some .emptyClause) => .emptyClause y
    | _ => .failed
  | _ => .failed

/-- How the process goes on. -/
inductive Ending where
  /-- it exits with the code; the answer file; the certificate file if the answer is UNSAT -/
  | exits (code : Nat) (answer proof : Option (List Char))
  | panics
  /-- the iterations given were not enough -/
  | goesOn

/-- src/cdb/unsat_certificate.rs:70-99: what is in the certificate file when the solver is given up without closing it. -/
def leftFile (cert : List CertRec) : Option (List Char) :=
  ((cert.map CertRec.ints).foldlM Cert.Store.record Cert.Store.new).bind Cert.Store.buffer

variable {K : Type} [LinearOrder K]

/-- src/bin/splr.rs:87-222 `main` from loading the file on, with `--certify`: the answer file and the certificate file; `report`: the comment lines of the answer file. -/
def splrA (c : CfgW) (p : PreW) (u : Nat) (ts : List (TickW K)) (low : Nat → Bool) (act : Nat → Nat → Nat → Bool) (report : List (List Char)) (text : List Char) :
    Ending :=
  match SolQ.load act text with
  | .failed => .panics
  | .emptyClause y =>
    match leftFile y.db.cert with
    | .none => .panics
    | some f => .exits 20 .none (some f)
  | .ok y =>
    match solveA c p (StageManager.new u) {} ts low y with
    | .sat v _ => .exits 10 (some (Dimacs.answerText report v)) .none
    | .unsat db =>
      match Cert.fileOf (db.cert.map CertRec.ints) with
      | some (some f) => .exits 20 (some (statusText report "s UNSATISFIABLE".toList)) (some f)
      | _ => .panics
    | .err => .exits 0 (some (statusText report "s UNKNOWN".toList)) .none
    | .more _ => .goesOn
    | _ => .panics

end Splr
