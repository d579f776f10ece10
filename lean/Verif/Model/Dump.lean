import Verif.Model.Main
import Verif.Model.Dimacs
/-!
# `dump_cnf`: src/solver/build.rs:242-247, src/cdb/db.rs:1271-1301
-/
namespace Splr
open Text

/-- src/cdb/db.rs:1286-1295 a clause: its literals, each followed by a blank, and 0. -/
def dumpClause (c : Cls) : List Char := (c.flatMap fun l => showInt l.toInt ++ [' ']) ++ ['0', '\n']

/-- src/assign/stack.rs:250-252 `len_upto(0)`: 0 if no decision has been made. -/
def Stk.lenUpto0 (s : Stk) : Nat :=
  match s.lim with
  | [] => 0
  | k :: _ => k

/-- src/cdb/db.rs:1271-1301 `dump_cnf`: the text written to the file; `none`: a panic. `Tusize::NumAssertedVar` is `num_asserted_vars` (src/assign/mod.rs:230).
Simplification: the file can be created and written. -/
def dumpCnf (db : Cdb) (s : Stk) : Option (List Char) :=
  if ((List.range s.numVars).drop 1).any fun v => s.elim v && (s.assign v).isSome then none
  else
    let alive := db.ids.filter fun i => !(db.clause i).dead
    some ("p cnf ".toList ++ showNat s.numVars ++ [' '] ++ showNat (alive.length + s.numAsserted) ++ ['\n'] ++
      (alive.flatMap fun i => dumpClause (db.clause i).lits) ++ "c from trail\n".toList ++
      ((s.trail.take s.lenUpto0).flatMap fun l => showInt l.toInt ++ " 0\n".toList))

end Splr
