import Verif.Model.Timed
import Verif.Lemmas.Fresh
import Verif.Lemmas.Stage
/-! The main loop with its stage manager ends. -/
namespace Splr.LubySpec

theorem ones_mono {a b : Nat} (h : a ≤ b) : ones a ≤ ones b := by
  induction h with
  | refl => exact Nat.le_refl _
  | step _ ih => rw [ones]; omega

theorem ones_pow (n : Nat) : n ≤ ones (2 ^ n - 1) := by
  induction n with
  | zero => omega
  | succ n ih =>
    have hp := two_pow_pos n
    have e1 : 2 ^ (n+1) = 2 * 2 ^ n := by rw [Nat.pow_succ]; omega
    obtain ⟨k, hk⟩ : ∃ k, 2 ^ (n+1) - 1 = k + 1 := ⟨2 ^ (n+1) - 2, by omega⟩
    have h1 := lubyAt_pow (n+1) (by omega)
    rw [hk] at h1 ⊢
    rw [ones, if_pos h1]
    have := ones_mono (a := 2 ^ n - 1) (b := k) (by omega)
    omega

end Splr.LubySpec

namespace Splr.Stage
open Luby LubySpec

/-- What the end of a stage does to the manager. -/
theorem nextStage_spec {m : StageManager} (h : Luby.Inv m.luby) (n : Nat) : ∃ flag m1, m.prepare n = some (flag, m1) ∧ Luby.Inv m1.luby ∧
    m1.luby.index = m.luby.index + 1 ∧ m1.unitSize = m.unitSize ∧ m1.cycle + ones m.luby.index = m.cycle + ones m1.luby.index ∧
    m1.endOfStage = n + m1.cycle * m1.unitSize := by
  obtain ⟨v, l, e, hi, hidx, hl, -⟩ := next_spec m.luby h
  have hv := isLuby_eq hl
  unfold StageManager.prepare
  rw [e]
  refine ⟨_, _, rfl, ?_⟩
  have ho : ones l.index = ones m.luby.index + if v = 1 then 1 else 0 := by rw [hidx, ones, hv]
  by_cases h1 : v = 1
  · subst h1
    rw [if_pos rfl] at ho
    cases h2 : m.nextIsNewSegment <;> simp only [decide_true, if_true, Bool.and_false, Bool.and_true, Bool.false_eq_true, if_false] <;> split <;>
      exact ⟨hi, hidx, rfl, by simp only []; omega, rfl⟩
  · rw [if_neg h1] at ho
    simp only [h1, decide_false, Bool.false_and, Bool.false_eq_true, if_false]
    split <;> exact ⟨hi, hidx, rfl, by simp only []; omega, rfl⟩

end Splr.Stage

namespace Splr
open Stk Stage LubySpec

/-- The choices of `search` that amount to those of the stage manager. -/
def Tick.orc (t : Tick) (n : Nat) (m : StageManager) : Orc :=
  let n1 := if t.grows then n + 1 else n
  { t.o with stage := if m.ended n1 then
      match m.prepare n1 with
      | none => none
      | some (flag, _) => some { t.st with cycle := flag.isSome, segment := flag.getD false }
    else none }

/-- One iteration is one iteration of `search`. -/
theorem timedStep_searchStep {cfg : Cfg} {t : Tick} {x : Sol} {n : Nat} {m : StageManager} (h : Luby.Inv m.luby) :
    ((timedStep cfg t (x, n, m)).bind fun z => .ok z.1) = searchStep cfg (t.orc n m) x := by
  unfold timedStep searchStep
  have hd : decideStep (t.orc n m) x.s = decideStep t.o x.s := rfl
  have hq : (t.orc n m).q = t.o.q := rfl
  have e1 : (t.orc n m).low = t.o.low := rfl
  have e2 : (t.orc n m).rr = t.o.rr := rfl
  have e3 : (t.orc n m).drift = t.o.drift := rfl
  rw [hd, hq, e1, e2, e3]
  simp only []
  cases decideStep t.o x.s with
  | none => rfl
  | some s =>
  simp only []
  cases propagate t.o.q x.db s with
  | ok => rfl
  | panic => rfl
  | fuel => rfl
  | conflict db s1 l r =>
  simp only []
  by_cases h0 : s1.dl = 0
  · rw [if_pos h0, if_pos h0]; rfl
  rw [if_neg h0, if_neg h0]
  cases handleConflict db s1 t.o.low t.o.rr t.o.drift l r with
  | panic => rfl
  | unsat => rfl
  | ok db2 s2 =>
  unfold timedConflict afterConflict Tick.orc
  simp only []
  by_cases he : m.ended (if t.grows then n + 1 else n) = true
  · obtain ⟨flag, m1, e, -⟩ := nextStage_spec h (if t.grows then n + 1 else n)
    simp only [he, e, if_true]
    cases stageStep cfg { t.st with cycle := flag.isSome, segment := flag.getD false } t.o.low2 _ <;> rfl
  · simp only [he]; rfl

theorem timedStep_luby {cfg : Cfg} {t : Tick} {x y : Sol} {n n' : Nat} {m m' : StageManager} (h : Luby.Inv m.luby)
    (e : timedStep cfg t (x, n, m) = .ok (y, n', m')) : Luby.Inv m'.luby := by
  unfold timedStep at e
  split at e
  · cases e
  split at e
  · cases e; exact h
  · cases e
  · cases e
  split at e
  · cases e
  split at e
  · cases e
  · cases e
  unfold timedConflict at e
  simp only [] at e
  generalize (if t.grows then n + 1 else n) = n1 at e
  split at e
  · obtain ⟨flag, m1, e1, h1, -⟩ := nextStage_spec h n1
    rw [e1] at e
    obtain ⟨z, -, e⟩ := Res.bind_ok e
    cases e; exact h1
  · cases e; exact h

theorem timedLoop_search {cfg : Cfg} : ∀ (ts : List Tick) (x : Sol) (n : Nat) (m : StageManager), Luby.Inv m.luby →
    ∃ os : List Orc, os.length = ts.length ∧ ((timedLoop cfg ts (x, n, m)).bind fun z => .ok z.1) = search cfg os x
  | [], x, n, m, _ => ⟨[], rfl, rfl⟩
  | t :: ts, x, n, m, h => by
    have h1 := timedStep_searchStep (cfg := cfg) (t := t) (x := x) (n := n) h
    unfold timedLoop
    simp only []
    by_cases hr : x.s.running = true
    · cases e : timedStep cfg t (x, n, m) with
      | ok z =>
        obtain ⟨y, n', m'⟩ := z
        obtain ⟨os, hl, he⟩ := timedLoop_search (cfg := cfg) ts y n' m' (timedStep_luby h e)
        refine ⟨t.orc n m :: os, by simp [hl], ?_⟩
        rw [e] at h1
        simp only [Res.bind] at h1
        rw [search, if_pos hr, if_pos hr, ← h1]
        exact he
      | _ =>
        refine ⟨t.orc n m :: ts.map (fun t => t.orc 0 m), by simp, ?_⟩
        rw [e] at h1
        simp only [Res.bind] at h1
        rw [search, if_pos hr, if_pos hr, ← h1]
        rfl
    · exact ⟨t.orc n m :: ts.map (fun t => t.orc 0 m), by simp, by rw [search, if_neg hr, if_neg hr]; rfl⟩

/-- `solve` with the stage manager is `solve` with the right ends of stages. -/
theorem timedSolve_solve {cfg : Cfg} {p : Pre} {m : StageManager} (h : Luby.Inv m.luby) (ts : List Tick) (low : Nat → Bool) (x : Sol) :
    ∃ os : List Orc, os.length = ts.length ∧ timedSolve cfg p m ts low x = solve cfg p os low x := by
  unfold timedSolve solve
  cases hp : preprocess cfg p x with
  | ok y =>
    obtain ⟨os, hl, he⟩ := timedLoop_search (cfg := cfg) ts y 0 (m.initialize 32) h
    refine ⟨os, hl, ?_⟩
    simp only [Res.bind] at he ⊢
    rw [← he]
    rfl
  | _ => exact ⟨ts.map (fun t => t.orc 0 m), by simp, rfl⟩

/-- The most that can be found out. -/
def gainBound (nv : Nat) : Nat := 4 ^ nv + nv

def todoBound (nv : Nat) : Nat := (4 ^ nv + nv) * (nv + 2) + nv + 1

/-- The state of the loop after `i` ends of stages: `a` is the number of learnt clauses at the last one. -/
structure TInv (F : Form) (nv k a i : Nat) (Z : Lit → Prop) (x : Sol) (n : Nat) (m : StageManager) : Prop where
  sok : SOK F nv x
  wt : Wt (fun _ w => Z w) x.db x.s
  nz : Nz Z x.db x.s
  luby : Luby.Inv m.luby
  idx : m.luby.index = k + i
  unit : 0 < m.unitSize
  cycle : m.cycle + ones k = ones (k + i)
  fin : a + m.cycle * m.unitSize ≤ m.endOfStage
  cnt : n ≤ a + gain Z nv x

/-- One iteration: what is left to do in the stage decreases, or a stage ends, and there have been few. -/
theorem timedStep_inv {F : Form} {nv k a i : Nat} {Z : Lit → Prop} {cfg : Cfg} {t : Tick} {x y : Sol} {n n' : Nat} {m m' : StageManager}
    (h : TInv F nv k a i Z x n m) (e : timedStep cfg t (x, n, m) = .ok (y, n', m')) :
    (TInv F nv k a i Z y n' m' ∧ todo Z nv y < todo Z nv x) ∨
    (m.cycle ≤ gainBound nv ∧ ∃ Z' a', TInv F nv k a' (i + 1) Z' y n' m') := by
  have h1 := timedStep_searchStep (cfg := cfg) (t := t) (x := x) (n := n) h.luby
  have e0 := e
  rw [e] at h1
  simp only [Res.bind] at h1
  have hsy : SOK F nv y := by
    have := searchStep_spec (cfg := cfg) (o := t.orc n m) h.sok
    rw [← h1] at this
    exact this
  have hly := (searchStep_lv h.sok ⟨Z, h.wt, h.nz⟩ h1.symm).2
  unfold timedStep at e
  split at e
  · cases e
  rename_i s hd
  split at e
  · rename_i db s1 hp
    simp only [Res.ok.injEq, Prod.mk.injEq] at e
    obtain ⟨rfl, rfl, rfl⟩ := e
    have h2 : searchStep cfg { t.o with stage := none } x = .ok { x with db := db, s := s1 } := by
      unfold searchStep
      have : decideStep { t.o with stage := none } x.s = decideStep t.o x.s := rfl
      rw [this, hd]
      simp only [hp]
    obtain ⟨a1, a2, a3, a4⟩ := searchStep_gain h.sok h.wt h.nz rfl h2
    have := todo_step h.sok h.wt h.nz rfl h2
    refine .inl ⟨⟨a1, a2, a3, h.luby, h.idx, h.unit, h.cycle, h.fin, ?_⟩, this⟩
    have := h.cnt
    rcases a4 with ⟨a4, -⟩ | a4 <;> omega
  · cases e
  · cases e
  rename_i db s1 l r hp
  split at e
  · cases e
  rename_i h0
  split at e
  · cases e
  · cases e
  rename_i db2 s2 hh
  obtain ⟨ri, w3, n3, main⟩ := handled_gain h.sok h.wt h.nz hd hp h0 hh
  have hcnt := h.cnt
  have hn1 : (if t.grows then n + 1 else n) ≤ n + 1 := by split <;> omega
  unfold timedConflict at e
  simp only [] at e
  generalize (if t.grows then n + 1 else n) = n1 at e hn1
  split at e
  · rename_i hend
    obtain ⟨flag, m1, e1, b1, b2, b3, b4, b5⟩ := nextStage_spec h.luby n1
    rw [e1] at e
    obtain ⟨z, -, e⟩ := Res.bind_ok e
    simp only [Res.ok.injEq, Prod.mk.injEq] at e
    obtain ⟨rfl, rfl, rfl⟩ := e
    right
    have hg := gain_le Z nv { x with db := db2, s := s2 }
    have hf := h.fin
    have hu := h.unit
    have hidx := h.idx
    have hcyc := h.cycle
    refine ⟨?_, ?_⟩
    · have : m.endOfStage = n1 := by simpa [StageManager.ended] using hend
      have : m.cycle ≤ m.cycle * m.unitSize := Nat.le_mul_of_pos_right _ hu
      unfold gainBound
      omega
    · obtain ⟨Z', w', n'⟩ := hly
      refine ⟨Z', n1, hsy, w', n', b1, by omega, by rw [b3]; exact hu, ?_, by omega, by omega⟩
      rw [b2, hidx] at b4
      rw [← Nat.add_assoc k i 1]
      omega
  · simp only [Res.ok.injEq, Prod.mk.injEq] at e
    obtain ⟨rfl, rfl, rfl⟩ := e
    rename_i hend
    have h2 : searchStep cfg { t.o with stage := none } x = .ok (if t.o.restart then { x with db := db2, s := s2.restart t.o.low2 } else { x with db := db2, s := s2 }) := by
      unfold searchStep
      have : decideStep { t.o with stage := none } x.s = decideStep t.o x.s := rfl
      rw [this, hd]
      simp only [hp, h0, hh, afterConflict]
      rfl
    obtain ⟨a1, a2, a3, a4⟩ := searchStep_gain h.sok h.wt h.nz rfl h2
    have htd := todo_step h.sok h.wt h.nz rfl h2
    refine .inl ⟨⟨a1, a2, a3, h.luby, h.idx, h.unit, h.cycle, h.fin, ?_⟩, htd⟩
    have : gain Z nv { x with db := db2, s := s2 } ≤ gain Z nv (if t.o.restart then { x with db := db2, s := s2.restart t.o.low2 } else { x with db := db2, s := s2 }) := by
      split
      · have t4 : Tr true false db2 s2 db2 (s2.restart t.o.low2) := Tr.cancelUntil ri t.o.low2 0
        have c5 := Finset.card_le_card (facts_mono (nv := nv) t4.root)
        unfold gain
        simp only []
        omega
      · exact Nat.le_refl _
    omega

/-- The number of stages is bounded, hence the number of iterations. -/
theorem timedLoop_ends {F : Form} {nv k I : Nat} (hI : gainBound nv + ones k < ones (k + I)) {cfg : Cfg} :
    ∀ {ts : List Tick} {x : Sol} {n : Nat} {m : StageManager} {a i : Nat} {Z : Lit → Prop} {z : Timed}, TInv F nv k a i Z x n m →
      (I - i) * (todoBound nv + 1) + todo Z nv x < ts.length → timedLoop cfg ts (x, n, m) = .ok z → z.1.s.running = false
  | [], x, n, m, a, i, Z, z, _, hl, _ => by simp at hl
  | t :: ts, x, n, m, a, i, Z, z, h, hl, e => by
    unfold timedLoop at e
    simp only [] at e
    split at e
    · obtain ⟨⟨y, n', m'⟩, e1, e2⟩ := Res.bind_ok e
      simp only [List.length_cons] at hl
      rcases timedStep_inv h e1 with ⟨h1, h2⟩ | ⟨h1, Z', a', h2⟩
      · exact timedLoop_ends hI h1 (by omega) e2
      · have hlt : i < I := by
          by_contra hge
          have := ones_mono (a := k + I) (b := k + i) (by omega)
          have := h.cycle
          omega
        refine timedLoop_ends hI h2 ?_ e2
        have := todo_le Z' nv y
        obtain ⟨d, hd⟩ : ∃ d, I - i = d + 1 := ⟨I - i - 1, by omega⟩
        have : I - (i + 1) = d := by omega
        rw [this]
        rw [hd, Nat.succ_mul] at hl
        unfold todoBound at *
        omega
    · rename_i hr
      cases e
      simpa using hr

end Splr
