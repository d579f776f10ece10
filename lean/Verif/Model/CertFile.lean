import Verif.Model.Cert
import Verif.Spec.Drat
/-! # src/cdb/unsat_certificate.rs:70-87: what the solver records, as integers -/
namespace Splr

/-- src/types/lit.rs:133-142 `From<Lit> for i32`, src/cdb/unsat_certificate.rs:70-87: a recorded line, as the integers that are queued. -/
def CertRec.ints : CertRec → Cert.Rec
  | .add c => .add (c.map Lit.toInt)
  | .del c => .del (c.map Lit.toInt)

end Splr
