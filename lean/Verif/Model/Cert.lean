import Verif.Spec.Proof
/-! # src/cdb/unsat_certificate.rs: `CertificationStore` -/
namespace Splr.Cert
open Text

/-- src/cdb/unsat_certificate.rs:33 `DUMP_INTERVAL`. -/
def dumpInterval : Nat := 4096 * 16

/-- src/cdb/unsat_certificate.rs:38-43 `struct CertificationStore`: the queue of `i32`s and, when active, what has been
written to the file. Simplification: writing to the file never fails. -/
structure Store where
  queue : List Int
  buffer : Option (List Char)
deriving DecidableEq

/-- The loop of src/cdb/unsat_certificate.rs:107-131: what `dump_to_file` writes for a queue; `none` = index out of
range. -/
def dumpText : List Int → Option (List Char)
  | [] => some []
  | l :: q =>
    if q.length < l.natAbs then none
    else match dumpText (q.drop l.natAbs) with
      | none => none
      | some rest => some ((if l < 0 then ['d', ' '] else []) ++
          ((q.take l.natAbs).flatMap fun i => showInt i ++ [' ']) ++ ['0', '\n'] ++ rest)
termination_by q => q.length
decreasing_by simp; omega

/-- src/cdb/unsat_certificate.rs:104-133 `dump_to_file`. -/
def Store.dump (s : Store) : Option Store :=
  match s.buffer with
  | none => some { s with queue := [] }
  | some b => (dumpText s.queue).map fun t => { queue := [], buffer := some (b ++ t) }

/-- src/cdb/unsat_certificate.rs:70-78 `add_clause` and 79-87 `delete_clause` (the literals given as integers). -/
def Store.record (s : Store) : Rec → Option Store
  | .add c =>
    let s := { s with queue := s.queue ++ (c.length : Int) :: c }
    if dumpInterval < s.queue.length then s.dump else some s
  | .del c =>
    let s := { s with queue := s.queue ++ (-(c.length : Int)) :: c }
    if dumpInterval < s.queue.length then s.dump else some s

/-- src/cdb/unsat_certificate.rs:88-99 `close`: returns the final file contents (`none` inside = inactive). -/
def Store.close (s : Store) : Option (Option (List Char)) :=
  match s.buffer with
  | none => some none
  | some _ => s.dump.map fun s => s.buffer.map (· ++ ['0', '\n'])

/-- src/cdb/unsat_certificate.rs:53-61: a freshly created active store. -/
def Store.new : Store := { queue := [], buffer := some [] }

/-- The file produced by recording `rs` and closing. -/
def fileOf (rs : List Rec) : Option (Option (List Char)) :=
  (rs.foldlM Store.record Store.new).bind Store.close

end Splr.Cert
