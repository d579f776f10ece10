import Verif.Spec.Proof
import Verif.Spec.Drat
/-! # A DRAT proof file, as a checker sees it (specification) -/
namespace Splr

/-- What a line of a proof file says: its integers are literals. -/
def Cert.Rec.line : Cert.Rec → CertRec
  | .add c => .add (clsOf c)
  | .del c => .del (clsOf c)

/-- The checker reads the file, accepts all its lines one after another, and arrives at a conflict. -/
def VerifiedFile (F : Form) (text : List Char) : Prop := ∃ rs, Cert.readProof text = some rs ∧ Verified false F (rs.map Cert.Rec.line)

end Splr
