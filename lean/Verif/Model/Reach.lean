import Verif.Model.Main
/-!
# The reachable states

Which states occur, at the boundaries of the modelled functions. All choices of the heuristics are existential here, so a
theorem about all reachable states holds for every schedule.
-/
namespace Splr

/-- `Built F x`: the solver `x` is the result of constructing a solver and calling the functions of its API
(src/solver/build.rs), and `F` is what it was given: the clauses of the successful calls, an assignment being a clause of one
literal. A rejected call gives nothing. -/
inductive Built : Form → Sol → Prop
  /-- `Solver::instantiate` -/
  | new (nv : Nat) : Built [] (Sol.new nv)
  | addVar {F : Form} {x : Sol} (h : Built F x) : Built F x.addVar.1
  | addClause {F : Form} {x y : Sol} {v : List Int} (h : Built F x) (e : x.addClause v = some (y, none)) : Built (F ++ [clsOf v]) y
  | rejected {F : Form} {x y : Sol} {v : List Int} {err : ApiErr} (h : Built F x) (e : x.addClause v = some (y, some err)) : Built F y
  | addAssignment {F : Form} {x y : Sol} {i : Int} (h : Built F x) (e : x.addAssignment i = (y, none)) : Built (F ++ [clsOf [i]]) y
  | rejectedAssignment {F : Form} {x y : Sol} {i : Int} (h : Built F x) (e : x.addAssignment i = (y, some .invalidLiteral)) : Built F y
  /-- a line of a file (src/solver/build.rs:285-324); the literals must be over the declared variables -/
  | line {F : Form} {x y : Sol} {c : List Int} {r : RefClause} (h : Built F x) (hc : ∀ i ∈ c, i ≠ 0 ∧ i.natAbs ≤ x.s.numVars)
      (e : x.addUnchecked (clsOf c) = some (y, r)) (hr : r ≠ .emptyClause) : Built (F ++ [clsOf c]) y

/-- `Head cfg F x`: `x` is the state at the beginning of an iteration of the main loop (src/solver/search.rs:236) of a call of
`solve` on a solver that was given `F`. -/
inductive Head (cfg : Cfg) (F : Form) : Sol → Prop
  | start {x y : Sol} {p : Pre} (h : Built F x) (e : preprocess cfg p x = .ok y) : Head cfg F y
  | step {x y : Sol} {o : Orc} (h : Head cfg F x) (hr : x.s.running = true) (e : searchStep cfg o x = .ok y) : Head cfg F y

/-- `Decided cfg F db s`: the state when `propagate` is called in the main loop (src/solver/search.rs:241). -/
inductive Decided (cfg : Cfg) (F : Form) : Cdb → Stk → Prop
  | mk {x : Sol} {s : Stk} {o : Orc} (h : Head cfg F x) (hr : x.s.running = true) (e : decideStep o x.s = some s) : Decided cfg F x.db s

/-- `Propagating cfg F db s`: the state between the steps of `propagate` in the main loop (src/assign/propagate.rs:399-563): before
it, after the reuse of the saved trail, and after the clauses of a literal have been looked at. -/
inductive Propagating (cfg : Cfg) (F : Form) : Cdb → Stk → Prop
  | start {db : Cdb} {s : Stk} (h : Decided cfg F db s) : Propagating cfg F db s
  | reused {db db' : Cdb} {s s' : Stk} {q : Nat} (h : Propagating cfg F db s) (e : Stk.reuse db q s = .ok db' s') : Propagating cfg F db' s'
  | literal {db db' : Cdb} {s s' : Stk} {p : Lit} (h : Propagating cfg F db s) (hp : s.trail[s.qhead]? = some p)
      (e : Stk.propLit false p db { s with qhead := s.qhead + 1 } = .ok db' s') : Propagating cfg F db' s'

/-- `Conflict cfg F db s l r`: `propagate` reports the conflict `(l, r)` in the main loop, in the state `db`, `s`. -/
inductive Conflict (cfg : Cfg) (F : Form) : Cdb → Stk → Lit → Reason → Prop
  | mk {db db' : Cdb} {s s' : Stk} {q : Nat} {l : Lit} {r : Reason} (h : Decided cfg F db s)
      (e : Stk.propagate q db s = .conflict db' s' l r) : Conflict cfg F db' s' l r

/-- `Inner cfg F d e`: a state at the root level between the steps of preprocessing and inprocessing (src/solver/search.rs:47-158,
251-378). `e` is the eliminator while it is at work. -/
inductive Inner (cfg : Cfg) (F : Form) : DS → Option El → Prop
  | built {x : Sol} (h : Built F x) : Inner cfg F (x.db, x.s) none
  | restart {x : Sol} (h : Head cfg F x) (low : Nat → Bool) : Inner cfg F (x.db, x.s.restart low) none
  | clearAsserted {d d' : DS} (h : Inner cfg F d none) (e : clearAsserted d = .ok d') : Inner cfg F d' none
  | reduce {d d' : DS} {victims : List Nat} (h : Inner cfg F d none) (e : d.1.reduceRes d.2 victims = .ok d') : Inner cfg F d' none
  | vivify {d d' : DS} {targets : List Nat} (h : Inner cfg F d none) (e : vivify targets d = .ok d') : Inner cfg F d' none
  | propagate {d d' : DS} (h : Inner cfg F d none) (e : (Stk.propagateSandbox d.1 d.2).toRes = .ok d') : Inner cfg F d' none
  | prepare {d : DS} {y : DS × El} {cnf : Nat} (h : Inner cfg F d none) (e : prepare true cfg.evo cnf d = .ok y) : Inner cfg F y.1 (some y.2)
  /-- src/solver/search.rs:87-121 pure literals, in preprocessing -/
  | pure {x : Sol} {x1 x2 x3 : DS} {y : DS × El} {targets : List Nat} (h : Built F x) (e1 : Splr.vivify targets (x.db, x.s) = .ok x1)
      (e2 : (Stk.propagateSandbox x1.1 x1.2).toRes = .ok x2) (e3 : Splr.prepare true cfg.evo x.cnf x2 = .ok y)
      (e4 : pureLoop x.cnf y.2 y.1.2.numVars 1 y.1 = .ok x3) : Inner cfg F x3 (some y.2)
  | command {d : DS} {e : El} {y : DS × El} {c : ECmd} (h : Inner cfg F d (some e)) (e : runCmd cfg.evo (d, e) c = .ok y) :
      Inner cfg F y.1 (some y.2)
  | stop {d : DS} {e : El} (h : Inner cfg F d (some e)) : Inner cfg F (d.1.unlinkAll, d.2) none

/-- `Probe cfg F db s`: a state during the vivification of a clause (src/cdb/vivify.rs:71-80), above the root level: some
literals are assigned tentatively and propagated. -/
inductive Probe (cfg : Cfg) (F : Form) : Cdb → Stk → Prop
  | start {d : DS} (h : Inner cfg F d none) : Probe cfg F d.1 d.2
  /-- the negation of a literal of the clause, when everything has been propagated -/
  | assign {db : Cdb} {s : Stk} {l : Lit} (h : Probe cfg F db s) (hr : s.remains = false) (hc : ∃ i, l.neg ∈ (db.clause i).lits)
      (hn : s.assign l.var = none) : Probe cfg F db (s.assignDecision l)
  | ok {db db' : Cdb} {s s' : Stk} (h : Probe cfg F db s) (e : Stk.propagateSandbox db s = .ok db' s') : Probe cfg F db' s'
  | conflict {db db' : Cdb} {s s' : Stk} {l : Lit} {r : Reason} (h : Probe cfg F db s)
      (e : Stk.propagateSandbox db s = .conflict db' s' l r) : Probe cfg F db' s'

/-- `Visited cfg F db s`: any of the states above, and those after propagation and after a handled conflict. -/
inductive Visited (cfg : Cfg) (F : Form) : Cdb → Stk → Prop
  | head {x : Sol} (h : Head cfg F x) : Visited cfg F x.db x.s
  | decided {db : Cdb} {s : Stk} (h : Decided cfg F db s) : Visited cfg F db s
  | propagating {db : Cdb} {s : Stk} (h : Propagating cfg F db s) : Visited cfg F db s
  | propagated {db db' : Cdb} {s s' : Stk} {q : Nat} (h : Decided cfg F db s) (e : Stk.propagate q db s = .ok db' s') : Visited cfg F db' s'
  | conflict {db : Cdb} {s : Stk} {l : Lit} {r : Reason} (h : Conflict cfg F db s l r) : Visited cfg F db s
  | handled {db db' : Cdb} {s s' : Stk} {l : Lit} {r : Reason} {low : Nat → Bool} {rr : Option Nat} {drift : Bool}
      (h : Conflict cfg F db s l r) (hd : 0 < s.dl) (e : handleConflict db s low rr drift l r = .ok db' s') : Visited cfg F db' s'
  | inner {d : DS} {e : Option El} (h : Inner cfg F d e) : Visited cfg F d.1 d.2
  | probe {db : Cdb} {s : Stk} (h : Probe cfg F db s) : Visited cfg F db s

end Splr
