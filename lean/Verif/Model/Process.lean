import Verif.Spec.Process
import Verif.Model.Main
/-!
# The process `splr` with its timer: src/bin/splr.rs

The main thread and the timer thread run in any interleaving; the schedule is a list of events. A crash is the end of the list.
Simplification: no write fails (the creation of the answer file may); the progress reports are lines without content.
-/
namespace Splr.Process

/-- The steps of the main thread. -/
inductive Act where
  | print (i : Item)
  | create
  | write (t : List Char)
  | close
  | exit (n : Nat)
deriving DecidableEq, Repr

/-- The timer thread: not started, waiting, the line is printed. -/
inductive Timer where
  | off
  | armed
  | printed
deriving DecidableEq, Repr

/-- The process. `stdout`: the answer is written to the standard output; `buf`: the contents of the `BufWriter`. -/
structure Proc where
  todo : List Act
  timer : Timer
  stdout : Bool
  out : List Item := []
  file : Option (List Char) := none
  buf : List Char := []
  code : Option Nat := none

/-- What happens next: a step of the main thread, of the timer thread, or the first `k` characters of the buffer are written. -/
inductive Ev where
  | main
  | timer
  | spill (k : Nat)
deriving DecidableEq, Repr

/-- `BufWriter` (src/bin/splr.rs:116-136) hands over a part of its buffer. -/
def Proc.spill (p : Proc) (k : Nat) : Proc :=
  if p.buf.take k = [] then p
  else if p.stdout then { p with buf := p.buf.drop k, out := p.out ++ [.text (p.buf.take k)] }
  else { p with buf := p.buf.drop k, file := some (p.file.getD [] ++ p.buf.take k) }

/-- A step of the main thread. -/
def Proc.perform (p : Proc) : Act → Proc
  | .print i => { p with out := p.out ++ [i] }
  | .create => { p with file := some [] }
  | .write t => { p with buf := p.buf ++ t }
  | .close => p.spill p.buf.length
  | .exit n => { p with code := some n }

/-- An event. After `exit` nothing happens. The timer: src/bin/splr.rs:77-85. -/
def Proc.step (p : Proc) : Ev → Proc
  | .main => if p.code.isSome then p else
    match p.todo with
    | [] => p
    | a :: rest => Proc.perform { p with todo := rest } a
  | .timer => if p.code.isSome then p else
    match p.timer with
    | .off => p
    | .armed => { p with out := p.out ++ [.timeOut], timer := .printed }
    | .printed => { p with code := some 0 }
  | .spill k => if p.code.isSome then p else p.spill k

/-- A schedule. -/
def Proc.run (p : Proc) (es : List Ev) : Proc := es.foldl Proc.step p

/-- src/bin/splr.rs:73-76: the value of SPLR_TIMEOUT (seconds) to the time to sleep (milliseconds). `timeout * 1000` wraps in a release build. -/
def sleepMs (val : Option (List Char)) : Option Nat :=
  (val.bind Text.parseUsize).map fun t => t * 1000 % 2 ^ 64

/-- `stdout`: the result file is `-` or cannot be created; `chatter`, `notes`: the numbers of other lines printed while solving and before the answer. -/
structure Setup where
  stdout : Bool
  chatter : Nat
  notes : Nat

/-- src/bin/splr.rs:115-222 `save_result`: the answer is printed before the file is written; 104-108: exit. -/
def saveActs (o : Setup) (r : Status) (pieces : List (List Char)) (code : Nat) : List Act :=
  (if o.stdout then [] else [.create]) ++ List.replicate o.notes (.print .other) ++ [.print (.status r)] ++ pieces.map .write ++
    [.close, .exit code]

/-- The pieces in which the text is written: src/bin/splr.rs:150-162, 183-190, 208-216. -/
def pieces (report : List (List Char)) : Verdict → List (List Char)
  | .sat v => report.map (· ++ ['\n']) ++ ["s SATISFIABLE\nv ".toList] ++ v.map (fun x => Text.showInt x ++ [' ']) ++ ["0\n".toList]
  | .unsat => report.map (· ++ ['\n']) ++ ["s UNSATISFIABLE\n".toList, "0\n".toList]
  | .error _ => report.map (· ++ ['\n']) ++ ["s UNKNOWN\n".toList, "0\n".toList]
  | .none => []

/-- src/bin/splr.rs:87-109 `main` from the loading on. 101 is the exit code of a panic. -/
def mainActs (o : Setup) (cfg : Cfg) (p : Pre) (os : List Orc) (low : Nat → Bool) (report : List (List Char)) (text : List Char) : List Act :=
  match Sol.load text with
  | .emptyClause => [.print (.status .unsat), .exit 20]
  | .failed => [.exit 101]
  | .ok x =>
    List.replicate o.chatter (.print .other) ++
    match (solve cfg p os low x).verdict with
    | .sat v => saveActs o .sat (pieces report (.sat v)) 10
    | .unsat => saveActs o .unsat (pieces report .unsat) 20
    | .error e => saveActs o .unknown (pieces report (.error e)) 0
    | .none => []

/-- The process at the moment the timer may be started. -/
def Proc.start (o : Setup) (val : Option (List Char)) (acts : List Act) : Proc :=
  { todo := acts, timer := if (sleepMs val).isSome then .armed else .off, stdout := o.stdout }

/-- The text of the answer that can be seen. -/
def Proc.seen (p : Proc) : List Char := bif p.stdout then texts p.out else p.file.getD []

end Splr.Process
