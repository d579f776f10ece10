import Verif.Spec.Text
/-!
# Readers and writers of text: src/types/cnf.rs, src/solver/build.rs `inject`, src/bin/splr.rs `save_result`,
src/bin/dmcr.rs `read_assignment`, src/cnf/mod.rs
-/
namespace Splr.Dimacs
open Text

/-! ## CNFReader and inject -/

/-- Outcome of looking at one line for the header: src/types/cnf.rs:116-127. `panic` = `unwrap` on a malformed
number. -/
inductive Hdr where
  | no
  | panic
  | yes (nv nc : Nat)
deriving DecidableEq

/-- src/types/cnf.rs:115-127: is this line a header? -/
def header (line : List Char) : Hdr :=
  match words line with
  | ['p'] :: ['c', 'n', 'f'] :: rest =>
    match rest with
    | [] => .no
    | v :: rest =>
      match parseUsize v with
      | none => .panic
      | some nv =>
        match rest with
        | [] => .no
        | c :: _ =>
          match parseUsize c with
          | none => .panic
          | some nc => .yes nv nc
  | _ => .no

/-- Result of reading the header. -/
inductive Opened where
  | ioError
  | panic
  | ok (nv nc : Nat) (rest : List (List Char))
deriving DecidableEq

/-- src/types/cnf.rs:111-145 `CNFReader::try_from`: skip lines up to the first header. -/
def openCnf : List (List Char) → Opened
  | [] => .ioError
  | l :: ls => match header l with
    | .yes nv nc => .ok nv nc ls
    | .panic => .panic
    | .no => openCnf ls

/-- src/solver/build.rs:299-309: the literals of a line up to a `0`; words that are not `i32`s are skipped. The flag
tells whether `0` was met. -/
def lineLits : List (List Char) → List Int × Bool
  | [] => ([], false)
  | w :: ws => match parseI32 w with
    | none => lineLits ws
    | some i => if i = 0 then ([], true) else let r := lineLits ws; (i :: r.1, r.2)

/-- What `inject` does with one line: src/solver/build.rs:292-320. -/
inductive LineAct where
  | skip
  | empty                      -- `return Err(SolverError::EmptyClause)`
  | clause (c : List Int)      -- `add_unchecked_clause`
deriving DecidableEq

/-- src/solver/build.rs:292-320. -/
def lineAct (line : List Char) : LineAct :=
  if startsWith ['c'] line then .skip
  else
    let r := lineLits (words line)
    if r.1 = [] then (if r.2 then .empty else .skip)
    else .clause r.1

/-- src/solver/build.rs:285-324 `inject`, abstracting the solver to the list of clauses it is given; `none` = stopped
with `EmptyClause` at a line with an empty clause. (`add_unchecked_clause` is modelled in `Model/Build.lean`.) -/
def injectLines : List (List Char) → Option (List (List Int))
  | [] => some []
  | l :: ls => match lineAct l with
    | .skip => injectLines ls
    | .empty => none
    | .clause c => (injectLines ls).map (c :: ·)

/-- src/solver/build.rs:233-236 `build`: the number of variables and the clauses given to the solver. -/
inductive Built where
  | ioError
  | panic
  | emptyClause
  | ok (nv : Nat) (clauses : List (List Int))
deriving DecidableEq

def build (text : List Char) : Built :=
  match openCnf (readLines text) with
  | .ioError => .ioError
  | .panic => .panic
  | .ok nv _ rest => match injectLines rest with
    | none => .emptyClause
    | some cs => .ok nv cs

/-! ## the answer file -/

/-- src/bin/splr.rs:150-162: the answer file for a model: comment lines (the report), then the `s` and `v` lines. -/
def answerText (comments : List (List Char)) (model : List Int) : List Char :=
  (comments.flatMap (· ++ ['\n'])) ++ "s SATISFIABLE\nv ".toList ++
    (model.flatMap fun x => showInt x ++ [' ']) ++ "0\n".toList

/-- Outcome of `read_assignment`. -/
inductive Read where
  | panic
  | none_
  | some_ (v : List Int)
deriving DecidableEq

/-- src/bin/dmcr.rs:235-242: the words of a `v` line up to `0`; `none` = panic on a bad word. -/
def vLits : List (List Char) → Option (List Int)
  | [] => some []
  | w :: ws => match parseI32 w with
    | none => none
    | some i => if i = 0 then some [] else (vLits ws).map (i :: ·)

/-- src/bin/dmcr.rs:209-254 `read_assignment` (`assign` is always `Some`, dmcr.rs:138-146). -/
def readAnswer : List (List Char) → Read
  | [] => .some_ []
  | l :: ls =>
    if startsWith ['c'] l then readAnswer ls
    else if startsWith ['s', ' '] l then
      if startsWith "s SATISFIABLE".toList l then readAnswer ls
      else .none_
    else match l with
      | 'v' :: ' ' :: rest => match vLits (words rest) with
        | some v => .some_ v
        | none => .panic
      | _ => .panic

/-! ## the CNF builder -/

/-- src/cnf/mod.rs:27-34 `struct CNF` (hash sets as lists). -/
structure CNF where
  numVars : Nat
  assign : List Int
  clauses : List (List Int)
  clsMap : List (List Int)
  noCheck : Bool
deriving DecidableEq

/-- `derive(Default)`. -/
def CNF.empty : CNF := ⟨0, [], [], [], false⟩

/-- src/cnf/mod.rs:15 `enum CNFOperationError` (the ones used here). -/
inductive CErr where
  | exists_
  | emptyClause
  | conflicting
  | parsing
  | panic          -- failed `assert_eq!`
deriving DecidableEq

/-- insertion into an ascending list -/
def insertSorted (x : Int) : List Int → List Int
  | [] => [x]
  | y :: ys => if x ≤ y then x :: y :: ys else y :: insertSorted x ys

/-- `sort_unstable` on integers -/
def sortInts (l : List Int) : List Int := l.foldr insertSorted []

/-- `max` of the absolute values -/
def maxVar (c : List Int) : Nat := c.foldl (fun m i => max m i.natAbs) 0

/-- src/cnf/mod.rs:62-86 `add_clause`. -/
def CNF.addClause (f : CNF) (c : List Int) : Except CErr CNF :=
  let cc := sortInts c
  let f := if !f.noCheck && decide (100000 < f.clauses.length) then { f with noCheck := true, clsMap := [] } else f
  if !f.noCheck && f.clsMap.contains cc then .error .exists_
  else if c = [] then .error .emptyClause
  else .ok { f with numVars := max f.numVars (maxVar c)
                    clsMap := if f.noCheck then f.clsMap else cc :: f.clsMap
                    clauses := f.clauses ++ [c] }

/-- src/cnf/mod.rs:87-113 `from_vec_i32`. -/
def CNF.fromVec (cs : List (List Int)) : Except CErr CNF :=
  cs.foldlM (init := CNF.empty) fun f c =>
    match c with
    | [] => .error .emptyClause
    | [l] => if f.assign.contains (-l) then .error .conflicting
             else .ok { f with assign := l :: f.assign, numVars := max f.numVars l.natAbs }
    | c => .ok { f with clsMap := sortInts c :: f.clsMap, clauses := f.clauses ++ [c],
                        numVars := max f.numVars (maxVar c) }

/-- src/cnf/mod.rs:195-209 `dump_to_string`. -/
def CNF.dump (f : CNF) : List Char :=
  "p cnf ".toList ++ showNat f.numVars ++ [' '] ++ showNat f.clauses.length ++ ['\n'] ++
  (" 0\n".toList).intercalate (f.clauses.map fun c => [' '].intercalate (c.map showInt)) ++ " 0\n".toList

/-- src/cnf/mod.rs:131-139: the literals of a line for `load`: pieces between single spaces, up to a `0`. -/
def loadLits : List (List Char) → List Int
  | [] => []
  | w :: ws => match parseI32 w with
    | none => loadLits ws
    | some i => if i = 0 then [] else i :: loadLits ws

/-- State of the loop of `load`. -/
structure LoadState where
  hdr : Option (Nat × Nat)
  cnf : CNF
  numClause : Nat
  dup : Bool
deriving DecidableEq

/-- src/cnf/mod.rs:123-168: one line of `load`. -/
def loadLine (s : LoadState) (line : List Char) : Except CErr LoadState :=
  if line = ['\n'] then .ok s
  else if startsWith ['c'] line then .ok s
  else match s.hdr with
    | some _ =>
      match s.cnf.addClause (loadLits (splitSpace line)) with
      | .ok f => .ok { s with cnf := f, numClause := s.numClause + 1 }
      | .error .exists_ => .ok { s with dup := true }
      | .error e => .error e
    | none => match header line with
      | .yes nv nc => .ok { s with hdr := some (nv, nc), cnf := { s.cnf with noCheck := decide (100000 < nc) } }
      | .panic => .error .panic
      | .no => .ok s

/-- src/cnf/mod.rs:114-183 `load`. -/
def CNF.load (text : List Char) : Except CErr CNF :=
  match (readLines text).foldlM loadLine ⟨none, CNF.empty, 0, false⟩ with
  | .error e => .error e
  | .ok s => match s.hdr with
    | none => .error .parsing
    | some (_, nc) =>
      if s.dup then (if s.cnf.clauses.length = s.numClause then .ok s.cnf else .error .panic)
      else if s.cnf.clauses.length < 100000 ∧ s.cnf.clauses.length ≠ nc then .error .panic
      else .ok s.cnf

end Splr.Dimacs
