import Verif.Lemmas.ElimRuns
import Verif.Model.Ample
import Mathlib.Data.Finset.Card
/-! The control loops of the eliminator end: elimination. -/
namespace Splr
open Stk Heap

theorem Res.bind_assoc {α β γ : Type} (r : Res α) (f : α → Res β) (g : β → Res γ) : (r.bind f).bind g = r.bind fun a => (f a).bind g := by
  cases r <;> rfl

theorem upd_self {α β : Type} [DecidableEq α] (f : α → β) (a : α) : upd f a (f a) = f := by
  funext x; rw [upd_apply]; split <;> simp_all

/-! ## one variable -/

/-- No variable is eliminated if a resolvent is too long to be used. -/
def Careful (p : Lims) (skip : Nat → DS × El → Bool) : Prop := ∀ (v : Nat) (y : DS × El), RInv y.1.1 y.1.2 → Dom y.1.1 y.1.2 → skip v y = false →
  ∀ i ∈ y.2.pos v, ∀ j ∈ y.2.neg v, ⟨v, true⟩ ∈ (y.1.1.clause i).lits → ⟨v, false⟩ ∈ (y.1.1.clause j).lits →
    ∀ c : Cls, (c.map Lit.var).Nodup → (∀ l, l ∈ c ↔ (l ∈ (y.1.1.clause i).lits ∨ l ∈ (y.1.1.clause j).lits) ∧ l.var ≠ v) → c.length ≤ p.sub

theorem eliminateVar_short {p : Lims} {skip : Nat → DS × El → Bool} {v : Nat} {y w : DS × El} (hi : RInv y.1.1 y.1.2) (hdm : Dom y.1.1 y.1.2) (hl : y.1.2.lim = [])
    (ho : OccInv y.2 y.1.1 y.1.2) (hn : y.1.2.assign v = none) (hab : y.2.aborted v = false) (hsk : skip v y = false) (hc : Careful p skip)
    (h : eliminateVar p.evo v y.1 y.2 = .ok w) (hs : Short p.sub y.1.1) : Short p.sub w.1.1 := by
  obtain ⟨⟨db, s⟩, e⟩ := y
  have hsh := eliminateVar_shape (evo := p.evo) hi hdm hl ho hn hab
  rw [h] at hsh
  obtain ⟨pos, neg, u, z, ed, rfl⟩ := hsh
  obtain ⟨e0, hk⟩ := ed.hk
  have hu : Short p.sub u.1.1 := by
    intro i
    by_cases hne : (u.1.1.clause i).lits = []
    · rw [hne]; exact Nat.zero_le _
    · rcases hk.src i hne with h1 | ⟨a, b, h1, h2, h3⟩
      · rw [h1]; exact hs i
      · refine hc v ((db, s), e) hi hdm hsk a ?_ b ?_ h1 h2 _ (ed.t.rinv.wf.nd i) h3
        · have := ho a _ h1 hab
          simpa [El.occ] using this
        · have := ho b _ h2 hab
          simpa [El.occ] using this
  exact Shr.short (fun i l hm => ed.hd.sub i l hm) ed.hd.wf hu

theorem eliminateVarQ_runs {F : Form} {s0 : Stk} {recs : List Rec} {p : Lims} {skip : Nat → DS × El → Bool} {v : Nat} {z : ES} (h : GOK F s0 recs p z)
    (hv : 1 ≤ v ∧ v ≤ p.cnf) (hel : z.1.1.2.elim v = false) (hn : z.1.1.2.assign v = none) :
    Runs p.evo z.1 (·.1) (fun z' => GOK F s0 recs p z' ∧ Step (Careful p skip) p z z' ∧ (z'.2.vars = z.2.vars ∨ z'.1.1.2.elim v = true)) (eliminateVarQ p skip v z) := by
  unfold eliminateVarQ
  split
  · exact .ok rfl ⟨h, h.refl, .inl rfl⟩
  rename_i hab
  refine (Runs.cmd (c := .retain v true) (QSim.state (Q := fun q => q = z.2) _ rfl)
    (Q' := fun z1 => GOK F s0 recs p z1 ∧ z1.1.1 = z.1.1 ∧ z1.2 = z.2 ∧ z1.1.2.aborted = z.1.2.aborted ∧
      (∀ c ∈ z1.1.2.pos v, ⟨v, true⟩ ∈ (z1.1.1.1.clause c).lits) ∧ (∀ c ∈ z1.1.2.neg v, ⟨v, false⟩ ∈ (z1.1.1.1.clause c).lits)) fun y q e hq => ?_).bind ?_
  · subst hq
    refine ⟨h.cmd e h.q h.bwd, ?_⟩
    cases e
    refine ⟨rfl, rfl, rfl, fun c hc => ?_, fun c hc => ?_⟩ <;> simp [El.keep] at hc <;> exact hc.2
  rintro z1 ⟨g1, e1, e2, e3, hp, hng⟩
  have s1 : Step (Careful p skip) p z z1 :=
    Step0.step ⟨.same h.eok.lim e1 (fun _ h => by rw [e3]; exact h), by rw [e2], by rw [e2], by rw [e1]; exact fun _ h => h⟩ h.bwd (by rw [e2])
  simp only []
  split
  · exact .ok rfl ⟨g1, s1, .inl (by rw [e2])⟩
  rename_i hbud
  have hsk : skip v z1.1 = false := by
    rw [not_or] at hbud; simpa using hbud.2
  have hcmd : runCmd p.evo z1.1 (.elimVar v) = eliminateVar p.evo v z1.1.1 z1.1.2 := by
    simp only [runCmd]
    rw [if_neg]
    rw [e1, e3, h.eok.nv, ← h.cnf]
    simp only [not_or, Bool.not_eq_true, not_not]
    exact ⟨by omega, by omega, hel, hn, by simpa using hab⟩
  have hpe : ((z1.1.2.pos v).filter fun c => decide (⟨v, true⟩ ∈ (z1.1.1.1.clause c).lits)) = z1.1.2.pos v :=
    List.filter_eq_self.2 fun c hc => by simpa using hp c hc
  have hne : ((z1.1.2.neg v).filter fun c => decide (⟨v, false⟩ ∈ (z1.1.1.1.clause c).lits)) = z1.1.2.neg v :=
    List.filter_eq_self.2 fun c hc => by simpa using hng c hc
  have hq1 : QuOK p { z1.2 with budget := z1.2.budget - (z1.1.2.pos v).length * (z1.1.2.neg v).length } := ⟨g1.q.wf, g1.q.size, g1.q.cls⟩
  have hsim : QSim (QTs p { z1.2 with budget := z1.2.budget - (z1.1.2.pos v).length * (z1.1.2.neg v).length })
      ((resolveAllQ p v ((z1.1.2.pos v).flatMap fun i => (z1.1.2.neg v).map fun j => (i, j))
          ((z1.1.1, { z1.1.2 with
            lits := z1.1.2.lits ++ elimClauses v ((z1.1.2.pos v).map fun c => (z1.1.1.1.clause c).lits) ((z1.1.2.neg v).map fun c => (z1.1.1.1.clause c).lits) }),
            { z1.2 with budget := z1.2.budget - (z1.1.2.pos v).length * (z1.1.2.neg v).length })).bind fun u =>
          (dropAllQ p (z1.1.2.pos v ++ z1.1.2.neg v) u).bind fun w =>
            .ok (((w.1.1.1, w.1.1.2.makeEliminated v), w.1.2.clearVar v), w.2)) (runCmd p.evo z1.1 (.elimVar v)) := by
    rw [hcmd]
    unfold eliminateVar
    simp only []
    rw [hpe, hne, upd_self, upd_self]
    obtain ⟨h1, h2⟩ := resolveAllQ_sim (v := v) (ps := (z1.1.2.pos v).flatMap fun i => (z1.1.2.neg v).map fun j => (i, j))
      (y := (z1.1.1, { z1.1.2 with
            lits := z1.1.2.lits ++ elimClauses v ((z1.1.2.pos v).map fun c => (z1.1.1.1.clause c).lits) ((z1.1.2.neg v).map fun c => (z1.1.1.1.clause c).lits) }))
      hq1 g1.rng
    refine h1.bind fun y q hy t => ?_
    refine (dropAllQ_sim (y := y) t.ok (h2 y hy)).bind fun y2 q2 _ t2 => ⟨q2, rfl, t.trans t2⟩
  have hrw : ∀ (r : Res ES), (r.bind fun u => (dropAllQ p (z1.1.2.pos v ++ z1.1.2.neg v) u).bind fun w =>
        backward p (((w.1.1.1, w.1.1.2.makeEliminated v), w.1.2.clearVar v), w.2)) =
      (r.bind fun u => (dropAllQ p (z1.1.2.pos v ++ z1.1.2.neg v) u).bind fun w =>
            .ok (((w.1.1.1, w.1.1.2.makeEliminated v), w.1.2.clearVar v), w.2)).bind (backward p) := by
    intro r
    rw [Res.bind_assoc]
    congr 1
    funext u
    rw [Res.bind_assoc]
    rfl
  rw [hrw]
  refine (Runs.cmd (c := .elimVar v) hsim (Q' := fun z2 => GOK F s0 recs p z2 ∧ Step (Careful p skip) p z1 z2 ∧ z2.1.1.2.elim v = true) fun y q e t => ?_).bind ?_
  · obtain ⟨k, t⟩ := t
    have hb : q.bwd = z1.2.bwd := t.bwd
    have hbu : q.budget = z1.2.budget - (z1.1.2.pos v).length * (z1.1.2.neg v).length := t.budget
    have hg := runCmd_grow g1.eok e
    refine ⟨g1.cmd e t.ok (by rw [hb]; exact g1.bwd), Step0.step ⟨hg.1, by simp only []; omega, by simp only []; omega, fun hK hs => ?_⟩ g1.bwd hb, ?_⟩
    · rw [hcmd] at e
      exact eliminateVar_short g1.eok.rinv g1.eok.dom g1.eok.lim g1.eok.occ (by rw [e1]; exact hn) (by rw [e3]; simpa using hab) hsk hK e hs
    rw [hcmd] at e
    have := eliminateVar_longer g1.eok.rinv g1.eok.dom g1.eok.lim g1.eok.occ (by rw [e1]; exact hn) (by rw [e3]; simpa using hab) e
    exact (this.2 v).2 (.inl rfl)
  · rintro z2 ⟨g2, s2, el2⟩
    exact (backward_runs (K := Careful p skip) g2).mono fun z3 hz => ⟨hz.g, (s1.trans s2).trans hz.st, .inr (by rw [hz.elim]; exact el2)⟩

/-! ## the queue of variables -/

theorem selectOcc_len (lt : Nat → Nat → Bool) (elim : Nat → Bool) : ∀ {fuel : Nat} {h : VarHeap}, Wf h → 1 < h.size → ∀ {o : Option Nat} {h' : VarHeap},
    selectOcc lt elim fuel h = some (o, h') → (o = none → h'.idxs 0 = 0) ∧ (∀ v, o = some v → h'.idxs 0 < h.idxs 0)
  | 0, _, _, _, _, _, e => by simp [selectOcc] at e
  | fuel + 1, h, w, h1, o, h', e => by
    have hl := w.len_lt
    unfold selectOcc at e
    by_cases h0 : h.idxs 0 = 0
    · have e' : h.getRootOcc lt = some (0, h) := by
        simp [VarHeap.getRootOcc, VarHeap.heapAt, VarHeap.idxAt, h0, h1, w.size_pos]
      rw [e'] at e
      simp only [if_true, Option.some.injEq, Prod.mk.injEq] at e
      obtain ⟨rfl, rfl⟩ := e
      exact ⟨fun _ => h0, by simp⟩
    · have hpos : 0 < h.idxs 0 := by omega
      obtain ⟨h2, e2, w2, s2, m2⟩ := getRootOcc_spec lt w hpos
      have hlen := getRootOcc_len lt w hpos e2
      have r1 := w.heap_range 1 (by omega) h1
      rw [e2] at e
      simp only [show h.heap 1 ≠ 0 by omega, if_false] at e
      split at e
      · obtain ⟨a, b⟩ := selectOcc_len lt elim w2 (by omega) e
        exact ⟨a, fun v hv => by have := b v hv; omega⟩
      · simp only [Option.some.injEq, Prod.mk.injEq] at e
        obtain ⟨rfl, rfl⟩ := e
        exact ⟨by simp, fun _ _ => by omega⟩

theorem pop_len {lt : Nat → Nat → Bool} {elim : Nat → Bool} {q q' : OccQ} {o : Option Nat} (w : Wf q.h) (h1 : 1 < q.h.size) (e : q.step lt (.pop elim) = some (o, q')) :
    (o = none → q'.h.len = 0) ∧ (∀ v, o = some v → q'.h.len < q.h.len) := by
  simp only [OccQ.step] at e
  split at e
  · simp at e
  · rename_i h' hs
    simp only [Option.some.injEq, Prod.mk.injEq] at e
    obtain ⟨rfl, rfl⟩ := e
    exact ⟨fun _ => (selectOcc_len lt elim w h1 hs).1 rfl, by simp⟩
  · rename_i v h' hs
    simp only [Option.some.injEq, Prod.mk.injEq] at e
    obtain ⟨rfl, rfl⟩ := e
    exact ⟨by simp, fun _ hv => (selectOcc_len lt elim w h1 hs).2 _ rfl⟩

/-- The number of variables not eliminated. -/
def stay (n : Nat) (elim : Nat → Bool) : Nat := ((Finset.range n).filter fun i => elim (i + 1) = false).card

theorem stay_le (n : Nat) (elim : Nat → Bool) : stay n elim ≤ n := by
  have := Finset.card_filter_le (Finset.range n) (fun i => elim (i + 1) = false)
  unfold stay; simpa using this

theorem stay_mono {n : Nat} {e1 e2 : Nat → Bool} (h : ∀ v, e1 v = true → e2 v = true) : stay n e2 ≤ stay n e1 := by
  refine Finset.card_le_card fun i hi => ?_
  simp only [Finset.mem_filter] at hi ⊢
  refine ⟨hi.1, ?_⟩
  cases he : e1 (i + 1) with
  | false => rfl
  | true => rw [h _ he] at hi; simp at hi

theorem stay_lt {n : Nat} {e1 e2 : Nat → Bool} (h : ∀ v, e1 v = true → e2 v = true) {v : Nat} (hv : 1 ≤ v ∧ v ≤ n) (h1 : e1 v = false) (h2 : e2 v = true) :
    stay n e2 < stay n e1 := by
  refine Finset.card_lt_card (Finset.ssubset_iff_of_subset (fun i hi => ?_) |>.2 ⟨v - 1, ?_, ?_⟩)
  · simp only [Finset.mem_filter] at hi ⊢
    refine ⟨hi.1, ?_⟩
    cases he : e1 (i + 1) with
    | false => rfl
    | true => rw [h _ he] at hi; simp at hi
  · simp only [Finset.mem_filter, Finset.mem_range]
    exact ⟨by omega, by rw [show v - 1 + 1 = v by omega]; exact h1⟩
  · simp only [Finset.mem_filter, Finset.mem_range, not_and]
    rw [show v - 1 + 1 = v by omega, h2]; simp

theorem varLoop_runs {F : Form} {s0 : Stk} {recs : List Rec} {p : Lims} {skip : Nat → DS × El → Bool} (hp : 1 ≤ p.cnf) : ∀ {n : Nat} {z : ES}, GOK F s0 recs p z →
    stay p.cnf z.1.1.2.elim * (p.cnf + 1) + z.2.vars.h.len < n →
    Runs p.evo z.1 (·.1) (fun z' => GOK F s0 recs p z' ∧ Step (Careful p skip) p z z' ∧ z'.2.vars.h.len = 0) (varLoop p skip n z)
  | 0, _, _, hn => by omega
  | n + 1, z, h, hn => by
    unfold varLoop
    obtain ⟨o, vq, e, w, s, sp⟩ := occ_step z.1.2.worse h.q.wf h.q.size (.pop z.1.1.2.elim) hp
    obtain ⟨l1, l2⟩ := pop_len h.q.wf (by rw [h.q.size]; omega) e
    rw [e]
    have hlt : vq.h.len ≤ p.cnf := by have := w.len_lt; unfold VarHeap.len; omega
    have g1 : GOK F s0 recs p (z.1, { z.2 with vars := vq }) := h.queues ⟨w, s, h.q.cls⟩ h.bwd
    have s1 : Step (Careful p skip) p z (z.1, { z.2 with vars := vq }) := Step0.step ⟨.refl h.eok.lim, Nat.le_refl _, Nat.le_refl _, fun _ h => h⟩ h.bwd rfl
    cases o with
    | none => exact .ok rfl ⟨g1, s1, l1 rfl⟩
    | some v =>
      simp only [] at sp ⊢
      obtain ⟨v1, v2, v3, -, -⟩ := sp.2.2.1 v rfl
      have hl := l2 v rfl
      split
      · rename_i hv
        refine (eliminateVarQ_runs g1 ⟨v1, v2⟩ hv.1 hv.2).bind ?_
        rintro z2 ⟨g2, s2, alt⟩
        refine (varLoop_runs hp g2 ?_).mono fun z3 ⟨g3, s3, l3⟩ => ⟨g3, (s1.trans s2).trans s3, l3⟩
        rcases alt with alt | alt
        · have := stay_mono (n := p.cnf) (e1 := z.1.1.2.elim) (e2 := z2.1.1.2.elim) s2.grow.elim
          have := Nat.mul_le_mul_right (p.cnf + 1) this
          rw [alt]; simp only []
          omega
        · have := stay_lt (n := p.cnf) (e1 := z.1.1.2.elim) (e2 := z2.1.1.2.elim) s2.grow.elim ⟨v1, v2⟩ v3 alt
          have hl2 : z2.2.vars.h.len ≤ p.cnf := by have := g2.q.wf.len_lt; have := g2.q.size; unfold VarHeap.len; omega
          have : (stay p.cnf z2.1.1.2.elim + 1) * (p.cnf + 1) ≤ stay p.cnf z.1.1.2.elim * (p.cnf + 1) := Nat.mul_le_mul_right _ this
          rw [Nat.add_mul] at this
          omega
      · refine (varLoop_runs hp g1 ?_).mono fun z3 ⟨g3, s3, l3⟩ => ⟨g3, s1.trans s3, l3⟩
        simp only []
        omega

theorem varLoop_enough {F : Form} {s0 : Stk} {recs : List Rec} {p : Lims} {z : ES} (h : GOK F s0 recs p z) :
    stay p.cnf z.1.1.2.elim * (p.cnf + 1) + z.2.vars.h.len < varFuel p z := by
  unfold varFuel
  have h1 := stay_le p.cnf z.1.1.2.elim
  have h2 : z.2.vars.h.len ≤ p.cnf := by have := h.q.wf.len_lt; have := h.q.size; unfold VarHeap.len; omega
  have h3 : z.1.1.2.numVars = p.cnf := by rw [h.cnf, h.eok.nv]
  have := Nat.mul_le_mul_right (p.cnf + 1) h1
  rw [h3, Nat.add_mul]
  omega

/-! ## the main loop -/

/-- Is something queued? -/
def busy (z : ES) : Nat := if z.2.vars.h.len ≠ 0 ∨ z.2.clauses ≠ [] then 1 else 0

theorem busy_le (z : ES) : busy z ≤ 1 := by unfold busy; split <;> omega

theorem busy_none {z : ES} (h1 : z.2.clauses = []) (h2 : z.2.vars.h.len = 0) : busy z = 0 := by unfold busy; rw [if_neg]; simp [h1, h2]

theorem mainLoop_runs {F : Form} {s0 : Stk} {recs : List Rec} {p : Lims} {skip : Nat → DS × El → Bool} (hp : 1 ≤ p.cnf) : ∀ {n : Nat} {z : ES}, GOK F s0 recs p z →
    2 * (z.2.budget + p.cnf) + busy z < n + 2 * z.2.bwd →
    Runs p.evo z.1 (·.1) (fun z' => GOK F s0 recs p z' ∧ Step (Careful p skip) p z z' ∧ z'.2.vars.h.len = 0 ∧ z'.2.clauses = [] ∧ z'.1.1.2.trail.length ≤ z'.2.bwd) (mainLoop p skip n z)
  | 0, z, h, hn => by have := h.bwd; have := h.trail; omega
  | n + 1, z, h, hn => by
    unfold mainLoop
    split
    swap
    · rename_i hc
      simp only [not_or, not_not, not_lt] at hc
      exact .ok rfl ⟨h, h.refl, hc.2.1, hc.2.2, hc.1⟩
    rename_i hcond
    have first : Runs p.evo z.1 (·.1) (fun z1 => GOK F s0 recs p z1 ∧ Step (Careful p skip) p z z1 ∧ (z.2.clauses = [] → z.2.bwd < z.1.1.2.trail.length → z.2.bwd < z1.2.bwd))
        (if z.2.clauses ≠ [] ∨ z.2.bwd < z.1.1.2.trail.length then backward p z else .ok z) := by
      split
      · exact (backward_runs (K := Careful p skip) h).mono fun z1 hz => ⟨hz.g, hz.st, hz.adv⟩
      · rename_i hc
        simp only [not_or, not_not, not_lt] at hc
        exact .ok rfl ⟨h, h.refl, fun _ hb => by omega⟩
    refine first.bind ?_
    rintro z1 ⟨g1, s1, adv⟩
    refine (varLoop_runs hp g1 (varLoop_enough g1)).bind ?_
    rintro z2 ⟨g2, s2, -⟩
    refine (backward_runs (K := Careful p skip) g2).bind fun z3 hz3 => ?_
    refine Runs.bind ⟨_, propagateQ_runs (K := Careful p skip) hz3.g⟩ ?_
    rintro z4 ⟨g4, s4, -, q4⟩
    have s04 : Step (Careful p skip) p z z4 := ((s1.trans s2).trans hz3.st).trans s4
    have b04 := s04.bwd
    split
    · rename_i hb0
      obtain ⟨q, e, g, st, c, v, bu, bw⟩ := clearQueues_runs (K := Careful p skip) g4
      rw [e]
      simp only [Res.bind]
      refine (mainLoop_runs hp g ?_).mono fun z5 ⟨g5, s5, r⟩ => ⟨g5, (s04.trans st).trans s5, r⟩
      rw [busy_none c v]
      simp only [bu, bw, hb0]
      by_cases hbusy : busy z = 0
      · have hb1 : z.2.clauses = [] := by
          by_contra hx
          simp [busy, hx] at hbusy
        have hb2 : z.2.vars.h.len = 0 := by
          by_contra hx
          simp [busy, hx] at hbusy
        have hb3 : z.2.bwd < z.1.1.2.trail.length := by
          rcases hcond with h | h | h
          · exact h
          · exact absurd hb2 h
          · exact absurd hb1 h
        have := adv hb1 hb3
        have := (s2.trans (hz3.st.trans s4)).bwd
        omega
      · omega
    · rename_i hb0
      have gq : GOK F s0 recs p (z4.1, { z4.2 with budget := z4.2.budget - 1 }) := g4.queues ⟨g4.q.wf, g4.q.size, g4.q.cls⟩ g4.bwd
      have sq : Step (Careful p skip) p z (z4.1, { z4.2 with budget := z4.2.budget - 1 }) := s04.trans (Step0.step ⟨.refl g4.eok.lim, Nat.sub_le _ _, Nat.le_refl _, fun _ h => h⟩ g4.bwd rfl)
      refine (mainLoop_runs hp gq ?_).mono fun z5 ⟨g5, s5, r⟩ => ⟨g5, sq.trans s5, r⟩
      have h1 := busy_le (z4.1, { z4.2 with budget := z4.2.budget - 1 })
      have h2 := s04.budget
      simp only [] at h1 ⊢
      omega

/-! ## the rounds -/

theorem Runs.withProp {α : Type} {evo : Nat} {y : DS × El} {st : α → DS × El} {Q : α → Prop} {r : Res α} (h : Runs evo y st Q r) (hr : ∀ a, r ≠ .ok a) :
    ∃ cs, RunsW evo (cs ++ [.propagate]) y st Q r := by
  obtain ⟨cs, h⟩ := h
  refine ⟨cs, ?_⟩
  cases r with
  | ok a => exact absurd rfl (hr a)
  | _ => exact show runCmds _ _ _ = _ by rw [runCmds_append, show runCmds _ _ _ = _ from h]; rfl

/-- The literals used are lifted, or a variable is given up. -/
def Clean (p : Lims) (z : ES) : Prop := (∃ v ≤ p.cnf, z.1.2.aborted v = true) ∨ (Short p.sub z.1.1.1 ∧ Lifted z)

theorem Clean.step {K : Prop} {p : Lims} {z z' : ES} (h : Clean p z) (hK : K) (hs : Step K p z z') {b : Nat} (hb : b ≤ z.2.bwd) (hn : z'.2.budget ≠ 0 ∨ z'.2.bwd = b) :
    Clean p z' := by
  have := hs.lift hK b hb (by rcases h with h | h; exacts [.inl h, .inr (.inl h)])
  rcases this with h | h | ⟨h1, h2⟩
  · exact .inl h
  · exact .inr h
  · rcases hn with hn | hn
    · exact absurd h1 hn
    · omega

/-- `mainLoop` of a fresh round. -/
theorem mainLoop_start {F : Form} {s0 : Stk} {recs : List Rec} {p : Lims} {skip : Nat → DS × El → Bool} {z : ES} (h : GOK F s0 recs p z)
    (hz : p.cnf = 0 → z.2.clauses = []) {b : Nat} :
    Runs p.evo z.1 (·.1) (fun z' => GOK F s0 recs p z' ∧ Grow z.1 z'.1 ∧ z'.2.vars.h.len = 0 ∧ z'.2.clauses = [] ∧ z'.1.1.2.trail.length ≤ z'.2.bwd ∧
        (Careful p skip → Clean p z → z'.2.budget ≠ 0 ∨ z'.2.bwd = z.2.bwd → Clean p z'))
      (mainLoop p skip (mainFuel (z.1, { z.2 with budget := b })) (z.1, { z.2 with budget := b })) := by
  have g0 : GOK F s0 recs p (z.1, { z.2 with budget := b }) := h.queues ⟨h.q.wf, h.q.size, h.q.cls⟩ h.bwd
  by_cases hp : 1 ≤ p.cnf
  · refine (mainLoop_runs hp g0 ?_).mono fun z1 ⟨g, s, r1, r2, r3⟩ => ⟨g, s.grow, r1, r2, r3, fun hK hc hn => Clean.step (z := (z.1, { z.2 with budget := b })) hc hK s (Nat.le_refl _) hn⟩
    unfold mainFuel
    have := busy_le (z.1, { z.2 with budget := b })
    have h3 : z.1.1.2.numVars = p.cnf := by rw [h.cnf, h.eok.nv]
    simp only [h3] at this ⊢
    omega
  · have hc := hz (by omega)
    have ht := h.trail
    have hl : z.2.vars.h.len = 0 := by have := h.q.wf.len_lt; have := h.q.size; unfold VarHeap.len; omega
    unfold mainFuel mainLoop
    rw [if_neg]
    · exact .ok rfl ⟨g0, .refl h.eok.lim, hl, hc, by simp only []; omega, fun _ h _ => h⟩
    · simp only [not_or, not_not, not_lt]
      exact ⟨by omega, hl, hc⟩

theorem elimLoop_runs {F : Form} {s0 : Stk} {recs : List Rec} {p : Lims} {skip : Nat → DS × El → Bool} {budget : DS → Nat} {late : Nat → Bool} :
    ∀ {n k : Nat} {z : ES}, GOK F s0 recs p z → (p.cnf = 0 → z.2.clauses = []) → p.cnf + 1 < n + z.1.1.2.trail.length →
    ∃ cs, RunsW p.evo (cs ++ [.propagate]) z.1 (·.1) (fun z' => GOK F s0 recs p z' ∧ Grow z.1 z'.1 ∧ z'.2.vars.h.len = 0 ∧ z'.2.clauses = [] ∧
        (Careful p skip → Clean p z → ampleLoop p skip budget late n k z = true → z'.1.1.2.trail.length ≤ z'.2.bwd ∧ Clean p z'))
      (elimLoop p skip budget late n k z)
  | 0, _, z, h, _, hn => by have := h.trail; omega
  | n + 1, k, z, h, hz, hn => by
    unfold elimLoop
    simp only []
    have hm := mainLoop_start (skip := skip) h hz (b := budget z.1.1)
    cases hr : mainLoop p skip (mainFuel (z.1, { z.2 with budget := budget z.1.1 })) (z.1, { z.2 with budget := budget z.1.1 }) with
    | ok z1 =>
      rw [hr] at hm
      obtain ⟨cs, e1, g1, s1, v1, c1, t1, cl1⟩ := hm
      simp only [Res.bind]
      have hpq := propagateQ_runs (K := Careful p skip) g1
      cases hr2 : propagateQ p z1 with
      | ok z2 =>
        rw [hr2] at hpq
        obtain ⟨e2, g2, s2, -, q2⟩ := hpq
        have cl2 : Careful p skip → Clean p z → (z1.2.budget ≠ 0 ∨ z1.2.bwd = z.2.bwd) → Clean p z2 := fun hK hc hn =>
          (cl1 hK hc hn).step hK s2 (Nat.le_refl _) (.inr (by rw [q2]))
        have hrun : runCmds p.evo (cs ++ [.propagate]) z.1 = .ok z2.1 := by rw [runCmds_append, e1]; exact e2
        have hc2 : z2.2.clauses = [] := by rw [q2]; exact c1
        have hv2 : z2.2.vars.h.len = 0 := by rw [q2]; exact v1
        have gr := s1.trans s2.grow
        simp only []
        split
        · rename_i hend
          refine ⟨cs, hrun, g2, gr, hv2, hc2, fun hK hc ha => ?_⟩
          unfold ampleLoop at ha
          simp only [hr, hr2] at ha
          rw [Bool.and_eq_true, Bool.or_eq_true, decide_eq_true_eq, decide_eq_true_eq] at ha
          refine ⟨?_, cl2 hK hc ha.1⟩
          have := s1.lng.tr.length_le
          have := s2.grow.lng.tr.length_le
          rw [q2]; omega
        · rename_i hcont
          split
          · rename_i hlate
            obtain ⟨q, e, g, st, c, v, bu, bw⟩ := clearQueues_runs (K := Careful p skip) g2
            rw [e]
            refine ⟨cs, hrun, g, gr, v, c, fun hK hc ha => ?_⟩
            unfold ampleLoop at ha
            simp only [hr, hr2] at ha
            rw [Bool.and_eq_true, Bool.or_eq_true, decide_eq_true_eq, decide_eq_true_eq, if_neg hcont, if_pos hlate, decide_eq_true_eq] at ha
            exact ⟨by simp only []; rw [bw]; exact ha.2, (cl2 hK hc ha.1).step hK st (Nat.le_refl _) (.inr bw)⟩
          · rename_i hlate
            have hlen : z.1.1.2.trail.length < z2.1.1.2.trail.length := by
              have := gr.lng.tr.length_le
              rcases Nat.lt_or_ge z.1.1.2.trail.length z2.1.1.2.trail.length with h | h
              · exact h
              · exact absurd ⟨by omega, hc2, hv2⟩ hcont
            obtain ⟨ds, hd⟩ := elimLoop_runs (skip := skip) (budget := budget) (late := late) (n := n) (k := k + 1) g2 (fun _ => hc2) (by omega)
            refine ⟨(cs ++ [.propagate]) ++ ds, ?_⟩
            rw [List.append_assoc]
            cases hr3 : elimLoop p skip budget late n (k + 1) z2 with
            | ok z3 =>
              rw [hr3] at hd
              obtain ⟨e3, g3, gr3, r1, r2, r3⟩ := hd
              refine ⟨by rw [runCmds_append, hrun]; exact e3, g3, gr.trans gr3, r1, r2, fun hK hc ha => ?_⟩
              unfold ampleLoop at ha
              simp only [hr, hr2] at ha
              rw [Bool.and_eq_true, Bool.or_eq_true, decide_eq_true_eq, decide_eq_true_eq, if_neg hcont, if_neg hlate] at ha
              exact r3 hK (cl2 hK hc ha.1) ha.2
            | _ => rw [hr3] at hd; exact show runCmds _ _ _ = _ by rw [runCmds_append, hrun]; exact hd
      | _ => rw [hr2] at hpq; exact ⟨cs, show runCmds _ _ _ = _ by rw [runCmds_append, e1]; exact hpq⟩
    | _ =>
      rw [hr] at hm
      obtain ⟨cs, e1⟩ := hm
      exact ⟨cs, show runCmds _ _ _ = _ by rw [runCmds_append, show runCmds _ _ _ = _ from e1]; rfl⟩

theorem eliminateQ_runs {F : Form} {s0 : Stk} {recs : List Rec} {p : Lims} {skip : Nat → DS × El → Bool} {budget : DS → Nat} {late : Nat → Bool} {z : ES}
    (h : GOK F s0 recs p z) (hz : z.2.clauses = []) :
    ∃ cs, RunsW p.evo (cs ++ [.propagate]) z.1 (·.1) (fun z' => GOK F s0 recs p z' ∧ Grow z.1 z'.1 ∧ z'.2.vars.h.len = 0 ∧ z'.2.clauses = [] ∧
        (Careful p skip → Clean p z → ampleLoop p skip budget late (z.1.1.2.numVars + 2) 0 z = true → z'.1.1.2.trail.length ≤ z'.2.bwd ∧ Clean p z'))
      (eliminateQ p skip budget late z) := by
  unfold eliminateQ
  refine elimLoop_runs h (fun _ => hz) ?_
  have : z.1.1.2.numVars = p.cnf := by rw [h.cnf, h.eok.nv]
  omega

end Splr
