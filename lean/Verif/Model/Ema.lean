import Mathlib.Algebra.Order.Field.Basic
import Mathlib.Algebra.Order.Ring.Nat
/-!
# The averages of src/types/ema.rs, src/cdb/ema.rs, and the restart test

With exact arithmetic: `K` is any ordered field (the code has `f64`; rounding is not modelled). The feature
`EMA_calibration` is off.
-/
namespace Splr

variable {K : Type} [Field K]

/-- src/types/ema.rs:43-47 `EmaView` -/
structure EmaView (K : Type) where
  fast : K
  slow : K

/-- src/types/ema.rs:62-68 `Ema` -/
structure Ema (K : Type) where
  val : EmaView K
  sca : K

/-- src/types/ema.rs:108-118 `Ema::new` -/
def Ema.new (s : Nat) : Ema K := { val := { fast := 0, slow := 0 }, sca := 1 / (s : K) }

/-- src/types/ema.rs:119-124 `Ema::with_value`, 101-104 `set_value` -/
def Ema.withValue (e : Ema K) (x : K) : Ema K := { e with val := { fast := x, slow := x } }

/-- src/types/ema.rs:90-92 `Ema::update` -/
def Ema.update (e : Ema K) (x : K) : Ema K := { e with val := { e.val with fast := e.sca * x + (1 - e.sca) * e.val.fast } }

/-- src/types/ema.rs:76-78 `get_fast` -/
def Ema.get (e : Ema K) : K := e.val.fast

/-- src/types/ema.rs:128-137 `Ema2` -/
structure Ema2 (K : Type) where
  ema : EmaView K
  fe : K
  se : K

/-- src/types/ema.rs:207-220 `Ema2::new` -/
def Ema2.new (len : Nat) : Ema2 K := { ema := { fast := 0, slow := 0 }, fe := 1 / (len : K), se := 1 / (len : K) }

/-- src/types/ema.rs:221-225 `with_slow` -/
def Ema2.withSlow (e : Ema2 K) (s : Nat) : Ema2 K := { e with se := 1 / (s : K) }

/-- src/types/ema.rs:229-238 `with_value` -/
def Ema2.withValue (e : Ema2 K) (x : K) : Ema2 K := { e with ema := { fast := x, slow := x } }

/-- src/types/ema.rs:169-172 `update` -/
def Ema2.update (e : Ema2 K) (x : K) : Ema2 K :=
  { e with ema := { fast := e.fe * x + (1 - e.fe) * e.ema.fast, slow := e.se * x + (1 - e.se) * e.ema.slow } }

/-- src/types/ema.rs:243-247 `EmaSU` -/
structure EmaSU (K : Type) where
  last : K
  ema : Ema K

/-- src/types/ema.rs:274-279 `EmaSU::new` -/
def EmaSU.new (s : Nat) : EmaSU K := { last := 0, ema := Ema.new s }

/-- src/types/ema.rs:263-267 `EmaSU::update` -/
def EmaSU.update (e : EmaSU K) (x : Nat) : EmaSU K := { last := x, ema := e.ema.update ((x : K) - e.last) }

/-- src/types/ema.rs:280-282 `update_base` -/
def EmaSU.updateBase (e : EmaSU K) (x : Nat) : EmaSU K := { e with last := x }

/-- src/types/ema.rs:289-294 `Ewa<N>`, 330-339 `Ewa2<N>` (which adds `slow`, `se` and `sx`); `pool` has `N` elements. -/
structure Ewa2 (K : Type) where
  ema : EmaView K
  pool : List K
  last : Nat
  se : K
  sx : K

/-- src/types/ema.rs:395-408 `Ewa2::new(initial)`; 317-326 `Ewa::new` -/
def Ewa2.new (N : Nat) (initial : K) : Ewa2 K :=
  { ema := { fast := initial, slow := initial }, pool := List.replicate N initial, last := 0, se := 1 / (N : K), sx := 1 - 1 / (N : K) }

/-- src/types/ema.rs:409-414 `with_slow` -/
def Ewa2.withSlow (e : Ewa2 K) (s : Nat) : Ewa2 K := { e with se := 1 / (s : K), sx := 1 - 1 / (s : K) }

/-- src/types/ema.rs:357-368 `Ewa2::update`; 304-310 `Ewa::update` is the same without the last line. -/
def Ewa2.update (N : Nat) (e : Ewa2 K) (x : K) : Ewa2 K :=
  let fast := e.ema.fast - e.pool.getD e.last 0
  let val := x / (N : K)
  { e with
    ema := { fast := fast + val, slow := e.se * x + e.sx * e.ema.slow }
    pool := e.pool.set e.last val
    last := (e.last + 1) % N }

/-- src/cdb/ema.rs:3-12 `ProgressLBD` -/
structure ProgressLBD (K : Type) where
  ema : Ewa2 K
  num : Nat
  sum : Nat

/-- src/cdb/ema.rs:3-4 -/
def lbdEwaLen : Nat := 16
/-- src/cdb/ema.rs:3-4 -/
def lbdEwaSlow : Nat := 8192

/-- src/cdb/ema.rs:24-31 `instantiate` -/
def ProgressLBD.new : ProgressLBD K := { ema := (Ewa2.new lbdEwaLen 0).withSlow lbdEwaSlow, num := 0, sum := 0 }

/-- src/cdb/ema.rs:47-51 `update`; called with the rank of every new clause (src/cdb/db.rs:418) and with 0 for every
asserted literal (src/cdb/db.rs:268-270). -/
def ProgressLBD.update (p : ProgressLBD K) (d : Nat) : ProgressLBD K :=
  { ema := p.ema.update lbdEwaLen (d : K), num := p.num + 1, sum := p.sum + d }

/-- src/types/ema.rs:56-58 `trend` and `>`, src/solver/search.rs:398 `trend() > rst_lbd_thr`. A quotient by 0 is an
infinity or, for 0/0, not a number, for which the comparison is false. -/
def EmaView.trendAbove [LinearOrder K] (v : EmaView K) (thr : K) : Bool :=
  if v.slow = 0 then decide (0 < v.fast) else decide (thr < v.fast / v.slow)

/-- src/cdb/mod.rs `refer(TEma::LBD)`, src/solver/search.rs:398: a restart is due. -/
def ProgressLBD.restartDue [LinearOrder K] (p : ProgressLBD K) (thr : K) : Bool := p.ema.ema.trendAbove thr

end Splr
