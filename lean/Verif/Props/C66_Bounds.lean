import Verif.Props.C07_Propagation
import Verif.Props.C14_C19_Process
import Verif.Lemmas.ElimExact
import Verif.Lemmas.ElimShrink
/-!
# C66: every stored index is in range

With the default features the arrays are read without bounds checks (`get_unchecked`, feature `unsafe_access`,
src/types/clause.rs:94-212, src/types/lit.rs:169-210, src/assign/stack.rs, src/cdb/db.rs). The arrays are: the variables, their
values, levels and reasons (indices 0 to the number of variables; `lbd_temp` as well, indexed by levels), the watch lists and
binary links (two per variable), and the clauses (`len` of them, number 0 being a dummy).
-/
namespace Splr
open Stk

/-! ## Specification -/

/-- A variable of the arrays. -/
def VarIx (s : Stk) (v : Nat) : Prop := 1 ≤ v ∧ v ≤ s.numVars

/-- The index of a clause that is there. -/
def ClauseIx (db : Cdb) (i : Nat) : Prop := 1 ≤ i ∧ i < db.len ∧ 2 ≤ (db.clause i).lits.length

/-- The indices in a reason. -/
def ReasonIx (db : Cdb) (s : Stk) : Reason → Prop
  | .impl cid => ClauseIx db cid
  | .binary l => VarIx s l.var
  | .decision k => k ≤ s.numVars
  | .none => True

/-- All indices stored in the clause database and in the assignment stack are in range. -/
structure InBounds (db : Cdb) (s : Stk) : Prop where
  /-- the literals of a clause; the index of a clause -/
  lits : ∀ i, ∀ l ∈ (db.clause i).lits, VarIx s l.var
  clause : ∀ i, (db.clause i).lits ≠ [] → ClauseIx db i
  /-- the free list -/
  free : ∀ i ∈ db.free, 1 ≤ i ∧ i < db.len
  /-- an entry of a watch list is about a clause of three or more literals; the cached literal is a literal -/
  watch : ∀ p i b, (i, b) ∈ db.watch p → VarIx s p.var ∧ ClauseIx db i ∧ 3 ≤ (db.clause i).lits.length ∧ VarIx s b.var
  /-- a binary link -/
  link : ∀ p i b, (b, i) ∈ db.blist p → VarIx s p.var ∧ ClauseIx db i ∧ VarIx s b.var
  hash : ∀ a b i, db.bhash (a, b) = some i → VarIx s a.var ∧ VarIx s b.var ∧ ClauseIx db i
  /-- the trail, the saved trail, the queue of variables -/
  trail : ∀ l ∈ s.trail, VarIx s l.var
  saved : ∀ l ∈ s.saved, VarIx s l.var
  heap : ∀ v ∈ s.heap, VarIx s v
  /-- the positions in the trail -/
  qhead : s.qhead ≤ s.trail.length
  lim : ∀ k ∈ s.lim, k < s.trail.length
  /-- the trail fits into the number of variables, so does the level -/
  size : s.trail.length ≤ s.numVars ∧ s.lim.length ≤ s.numVars
  /-- the level of every variable, also an old one of a variable that has no value -/
  level : ∀ v, s.level v ≤ s.numVars
  reason : ∀ v, ReasonIx db s (s.reason v)

/-! ## Proof -/

/-- What is needed. -/
structure BI (db : Cdb) (s : Stk) : Prop where
  rinv : RInv db s
  dom : Dom db s
  wt : ∃ Z : Lit → Prop, Wt (fun _ w => Z w) db s

theorem clauseIx {db : Cdb} (w : db.WF) {i : Nat} (h : (db.clause i).lits ≠ []) : ClauseIx db i := by
  refine ⟨?_, ?_, w.len2 i h⟩
  · by_contra hc
    have : i = 0 := by omega
    subst this
    exact h w.arena.zero
  · by_contra hc
    exact h (w.arena.big i (by omega))

theorem BI.inBounds {db : Cdb} {s : Stk} (h : BI db s) : InBounds db s := by
  obtain ⟨⟨w, hi⟩, hd, Z, hw⟩ := h
  have hl : ∀ i, ∀ l ∈ (db.clause i).lits, VarIx s l.var := fun i l hl => ⟨(hd.cl i l hl).1, (hd.cl i l hl).2.1⟩
  have has : ∀ v, s.assign v ≠ none → VarIx s v := fun v hv => ⟨(hd.as v hv).1, (hd.as v hv).2.1⟩
  have htl := trail_le hi hd
  have htr : ∀ l ∈ s.trail, VarIx s l.var := fun l h => has _ (tr_assigned (hi.tv l h))
  refine ⟨hl, fun i => clauseIx w, fun i h => ?_, fun p i b h => ?_, fun p i b h => ?_, fun a b i h => ?_, htr, fun l h => ?_,
    fun v h => hd.hp v (.inl h), hi.qh, hi.limLt, ⟨htl, hi.dl_le fun v hv => has v hv⟩, hd.lv, fun v => ?_⟩
  · have := (w.arena.freeIff i).1 h; exact ⟨this.1, this.2.1⟩
  · obtain ⟨h3, hp⟩ := (w.wIff p i).1 ⟨b, h⟩
    have hne : (db.clause i).lits ≠ [] := by intro e; rw [e] at h3; simp at h3
    have hpm : p.neg ∈ (db.clause i).lits := hp.elim List.mem_of_getElem? List.mem_of_getElem?
    refine ⟨hl i p.neg hpm, clauseIx w hne, h3, ?_⟩
    rcases hw.cache p i b h with hb | hb
    · exact hl i b hb
    · exact has b.neg.var (tr_assigned hb.1)
  · have hc := (w.bIff p b i).1 h
    have hp : p ∈ (db.clause i).lits := by rcases hc with e | e <;> rw [e] <;> simp
    have hb : b ∈ (db.clause i).lits := by rcases hc with e | e <;> rw [e] <;> simp
    exact ⟨hl i p hp, clauseIx w (List.ne_nil_of_mem hp), hl i b hb⟩
  · obtain ⟨x, y, e, k⟩ := (w.hIff (a, b) i).1 h
    have hx : x ∈ (db.clause i).lits := by rw [e]; simp
    have hy : y ∈ (db.clause i).lits := by rw [e]; simp
    have hk : (a = x ∧ b = y) ∨ (a = y ∧ b = x) := by
      unfold bkey at k; split at k <;> simp only [Prod.mk.injEq] at k <;> tauto
    have hc := clauseIx w (List.ne_nil_of_mem hx)
    rcases hk with ⟨rfl, rfl⟩ | ⟨rfl, rfl⟩
    · exact ⟨hl i _ hx, hl i _ hy, hc⟩
    · exact ⟨hl i _ hy, hl i _ hx, hc⟩
  · exact hd.hp l.var (.inr (List.mem_map_of_mem h))
  · by_cases hv : s.assign v = none
    · rw [hi.un v hv]; trivial
    · by_cases hvt : v ∈ s.trail.map Lit.var
      · obtain ⟨l, hl1, rfl⟩ := List.mem_map.1 hvt
        obtain ⟨pre, post, e⟩ := List.append_of_mem hl1
        have hr := hi.rs pre l post e
        unfold ReasonOK at hr
        split at hr
        · exact hr.elim
        · rename_i k hk; rw [hk, ← hr.1]; exact hd.lv _
        · rename_i m hm; rw [hm]
          obtain ⟨⟨i, hc⟩, -⟩ := hr
          have : m.neg ∈ (db.clause i).lits := by rcases hc with e | e <;> rw [e] <;> simp
          exact hl i m.neg this
        · rename_i cid hm; rw [hm]
          obtain ⟨rest, e, -⟩ := hr
          exact clauseIx w (by rw [e]; simp)
      · rw [hi.root v hv (hi.arch v hv hvt)]; exact Nat.zero_le _

theorem Head.bi {cfg : Cfg} {F : Form} {x : Sol} (h : Head cfg F x) : BI x.db x.s := by
  obtain ⟨F', -, hs⟩ := h.sok
  obtain ⟨Z, hw, -⟩ := h.lv
  exact ⟨hs.pinv.rinv, hs.dom, Z, hw⟩

theorem Decided.bi {cfg : Cfg} {F : Form} {db : Cdb} {s : Stk} (h : Decided cfg F db s) : BI db s := by
  have hi := h.inv
  obtain ⟨hh, -, hd⟩ := h
  obtain ⟨F', -, hs⟩ := hh.sok
  obtain ⟨Z, hw, -⟩ := hh.lv
  exact ⟨hi.1.rinv, hi.2.1, Z, decideStep_wt hs.pinv hw hd⟩

theorem Propagating.bi {cfg : Cfg} {F : Form} {db : Cdb} {s : Stk} (h : Propagating cfg F db s) : BI db s := by
  induction h with
  | start h => exact h.bi
  | @reused db db' s s' q h e ih =>
    obtain ⟨hr, hd, Z, hw⟩ := ih
    have hg := reuse_good (q := q) h.pinv
    have hw' := reuse_wtB (q := q) h.pinv.inv hw
    rw [e] at hg hw'
    have t := hg.trn (k := true) (r := false) hr
    exact ⟨t.rinv, t.dom hd, Z, hw'⟩
  | @literal db db' s s' p h hp e ih =>
    obtain ⟨hr, hd, Z, hw⟩ := ih
    have st := advance_step (db := db) hp
    have hx := (st.all h.pinv).1
    have hp' : ({ s with qhead := s.qhead + 1 } : Stk).tr p := hx.inv.tv p (List.mem_of_getElem? hp)
    have hlv : s.level p.var = s.dl := level_pending h.pinv.inv hw.cur (Nat.le_refl _) hp
    have hg := propLit_good PK.pinv (sandbox := false) hx hp'
    have hw' := propLit_wtB (Z := Z) (sandbox := false) hx.rinv hp' hlv (hw.advance hp)
    rw [e] at hg hw'
    have t := (st.trn (k := true) (r := false) hr).trans (hg.trn hx.rinv)
    exact ⟨t.rinv, t.dom hd, Z, hw'⟩

theorem Conflict.bi {cfg : Cfg} {F : Form} {db : Cdb} {s : Stk} {l : Lit} {r : Reason} (h : Conflict cfg F db s l r) :
    RInv db s ∧ Dom db s ∧ ∃ Z : Lit → Prop, Wt (fun _ w => Z w ∨ s.dl ≤ s.level w.var) db s := by
  have hi := h.inv
  obtain ⟨h, e⟩ := h
  rename_i db0 s0 q
  obtain ⟨-, -, Z, hw⟩ := h.bi
  have := propagate_wtB (q := q) h.inv.1 hw
  rw [e] at this
  exact ⟨hi.1.rinv, hi.2.1, Z, this⟩

theorem Inner.bi {cfg : Cfg} {F : Form} {d : DS} {e : Option El} (h : Inner cfg F d e) : BI d.1 d.2 :=
  ⟨h.kw.1.rinv, h.kw.1.dom, _, h.kw.1.wt⟩

theorem Probe.bi {cfg : Cfg} {F : Form} {db : Cdb} {s : Stk} (h : Probe cfg F db s) : BI db s := by
  induction h with
  | start h => exact h.bi
  | @assign db s l _ hr hc hn ih =>
    obtain ⟨hi, hd, Z, hw⟩ := ih
    have t := Tr.assignDecision (k := true) (r := false) hi hn (fun hd => by obtain ⟨i, hm⟩ := hc; exact hd.cl i l.neg hm)
    exact ⟨t.rinv, t.dom hd, Z, hw.assignDecision hi.inv hr hn⟩
  | @ok db db' s s' _ e ih =>
    obtain ⟨hi, hd, Z, hw⟩ := ih
    have hg := propagateSandbox_good hi
    have hw' := propagateSandbox_wtB hi hw
    rw [e] at hg hw'
    have t := hg.trn (k := true) (r := false) hi
    exact ⟨t.rinv, t.dom hd, Z, hw'⟩
  | @conflict db db' s s' l r _ e ih =>
    obtain ⟨hi, hd, Z, hw⟩ := ih
    have hg := propagateSandbox_good hi
    have hw' := propagateSandbox_wtB hi hw
    rw [e] at hg hw'
    have t := hg.1.trn (k := true) (r := false) hi
    exact ⟨t.rinv, t.dom hd, _, hw'⟩

theorem Visited.bi {cfg : Cfg} {F : Form} {db : Cdb} {s : Stk} (h : Visited cfg F db s) : BI db s := by
  cases h with
  | head h => exact h.bi
  | decided h => exact h.bi
  | propagating h => exact h.bi
  | @propagated db0 _ s0 _ q h e =>
    obtain ⟨hi, hd, Z, hw⟩ := h.bi
    have hg := propagate_good (q := q) h.inv.1
    have hw' := propagate_wtB (q := q) h.inv.1 hw
    rw [e] at hg hw'
    have t := hg.trn (k := true) (r := false) hi
    exact ⟨t.rinv, t.dom hd, Z, hw'⟩
  | conflict h => obtain ⟨h1, h2, Z, h3⟩ := h.bi; exact ⟨h1, h2, _, h3⟩
  | @handled db0 _ s0 _ l r low rr drift h hd e =>
    obtain ⟨h1, h2, Z, h3⟩ := h.bi
    have p := h.inv
    have t := handle_tr p.1 p.2.1 hd p.2.2.1 e
    exact ⟨t.rinv, t.dom h2, Z, handle_wt p.1 hd h3 p.2.2.1 e⟩
  | inner h => exact h.bi
  | probe h => exact h.bi

/-! ## The property -/

/-- **C66**: in every state that is visited, all indices stored in the clause database and in the assignment stack are in
range. -/
theorem C66_in_bounds {cfg : Cfg} {F : Form} {db : Cdb} {s : Stk} (h : Visited cfg F db s) : InBounds db s := h.bi.inBounds

/-- **C66**: the indices in a reported conflict are in range. -/
theorem C66_conflicts {cfg : Cfg} {F : Form} {db : Cdb} {s : Stk} {l : Lit} {r : Reason} (h : Conflict cfg F db s l r) :
    VarIx s l.var ∧ ReasonIx db s r := by
  obtain ⟨p, d, hc, -⟩ := h.inv
  cases r with
  | binary m =>
    obtain ⟨⟨i, hc⟩, -⟩ := hc
    have h1 : l ∈ (db.clause i).lits := by rcases hc with e | e <;> rw [e] <;> simp
    have h2 : m.neg ∈ (db.clause i).lits := by rcases hc with e | e <;> rw [e] <;> simp
    exact ⟨⟨(d.cl i _ h1).1, (d.cl i _ h1).2.1⟩, (d.cl i m.neg h2).1, (d.cl i m.neg h2).2.1⟩
  | impl cid =>
    obtain ⟨⟨rest, e⟩, -⟩ := hc
    have h1 : l ∈ (db.clause cid).lits := by rw [e]; simp
    exact ⟨⟨(d.cl cid _ h1).1, (d.cl cid _ h1).2.1⟩, clauseIx p.wf (List.ne_nil_of_mem h1)⟩
  | _ => exact hc.elim

/-- The example at a conflict in a clause of three literals: 11 variables, level 4, 8 literals in the trail, entries in watch
lists and binary links, a reason of each kind. -/
example : ∃ c : Conf, Visited {} (exDeep.map clsOf) c.1 c.2.1 ∧ Conflict {} (exDeep.map clsOf) c.1 c.2.1 c.2.2.1 c.2.2.2 ∧ c.2.1.numVars = 11 ∧
    c.2.1.lim.length = 4 ∧ c.2.1.trail.length = 8 ∧ (∃ p, c.1.watch p ≠ []) ∧ (∃ p, c.1.blist p ≠ []) ∧ c.1.len = 10 ∧
    (∃ v k, c.2.1.reason v = .impl k) ∧ (∃ v l, c.2.1.reason v = .binary l) ∧ ∃ v k, c.2.1.reason v = .decision k := by
  have h : exConf.any (fun c => decide (c.2.1.numVars = 11 ∧ c.2.1.lim.length = 4 ∧ c.2.1.trail.length = 8 ∧ c.1.watch ⟨5, true⟩ ≠ [] ∧
    c.1.blist ⟨4, true⟩ ≠ [] ∧ c.1.len = 10) && (match c.2.1.reason 7, c.2.1.reason 4, c.2.1.reason 1 with
      | .impl _, .binary _, .decision _ => true | _, _, _ => false)) = true := by decide +kernel
  obtain ⟨c, hc, h⟩ := (Option.any_eq_true _ _).1 h
  rw [Bool.and_eq_true] at h
  obtain ⟨h, h2⟩ := h
  simp only [decide_eq_true_eq] at h
  obtain ⟨h1, h3, h4, h5, h6, h7⟩ := h
  have hcf := Conflict.of exDeep_built hc
  split at h2
  · rename_i k1 l1 k2 g1 g2 g3
    exact ⟨c, .conflict hcf, hcf, h1, h3, h4, ⟨_, h5⟩, ⟨_, h6⟩, h7, ⟨_, _, g1⟩, ⟨_, _, g2⟩, _, _, g3⟩
  · simp at h2

/-- **C66**: where the saved trail is reused, the saved reasons of its literals are in range. -/
theorem C66_saved_reasons {cfg : Cfg} {F : Form} {db : Cdb} {s : Stk} (h : Propagating cfg F db s) :
    ∀ l ∈ s.saved, match s.reasonSaved l.var with | .decision _ => True | r => ReasonIx db s r := by
  intro l hl
  obtain ⟨-, hd, -⟩ := h.bi
  obtain ⟨pre, post, e⟩ := List.append_of_mem hl
  have hs := h.pinv.saved pre l post e
  unfold SavedAt at hs
  split at hs
  · exact hs.elim
  · rename_i k hk; rw [hk]; trivial
  · rename_i m hm; rw [hm]
    obtain ⟨⟨i, hc⟩, -⟩ := hs
    have h2 : m.neg ∈ (db.clause i).lits := by rcases hc with e | e <;> rw [e] <;> simp
    exact ⟨(hd.cl i m.neg h2).1, (hd.cl i m.neg h2).2.1⟩
  · rename_i cid hm; rw [hm]
    exact clauseIx h.pinv.wf (List.ne_nil_of_mem hs.1)

/-- A state with two saved literals, one of them with a saved reason (a binary clause). -/
example : ∃ db s, Propagating {} (exSaved.map clsOf) db s ∧ s.saved = [⟨2, true⟩, ⟨3, true⟩] ∧ ∃ l, s.reasonSaved 3 = .binary l := by
  have hb : Built (exSaved.map clsOf) (exSolver 6 exSaved) := exBuilt (by decide +kernel)
  have h : (match headOf {} plainPre (List.replicate 5 plainOrc) (exSolver 6 exSaved) with
    | some y => (match decideStep { plainOrc with pick := fun _ => 2 } y.s with
      | some s => decide (s.saved = [⟨2, true⟩, ⟨3, true⟩]) && (match s.reasonSaved 3 with | .binary _ => true | _ => false)
      | none => false)
    | none => false) = true := by decide +kernel
  split at h
  · rename_i y hy
    split at h
    · rename_i s hs
      rw [Bool.and_eq_true, decide_eq_true_eq] at h
      obtain ⟨h1, h2⟩ := h
      split at h2
      · rename_i l hl
        exact ⟨y.db, s, .start (.mk (Head.of hb hy).1 (Head.of hb hy).2 hs), h1, l, hl⟩
      · simp at h2
    · simp at h
  · simp at h

/-! ## Occurrence lists -/

/-- All clause indices in the occurrence lists are below `n`. -/
def OB (n : Nat) (e : El) : Prop := ∀ l, ∀ i ∈ e.occ l, 1 ≤ i ∧ i < n

theorem OB.mono {n m : Nat} {e : El} (h : OB n e) (hn : n ≤ m) : OB m e := fun l i hi => ⟨(h l i hi).1, Nat.lt_of_lt_of_le (h l i hi).2 hn⟩

theorem OB.removeLit {n : Nat} {e : El} (h : OB n e) (l : Lit) (cid : Nat) : OB n (e.removeLit l cid) := by
  intro m i hi
  unfold El.removeLit at hi
  split at hi
  · exact h m i hi
  · rw [occ_setOcc] at hi
    split at hi
    · rename_i hm
      exact h _ i (List.mem_of_mem_eraseP ((C41_delete_unstable _ _).mem_iff.1 hi))
    · exact h m i hi

theorem OB.removeCid {n : Nat} {asg : Nat → Option Bool} {cid : Nat} : ∀ {c : Cls} {e : El}, OB n e → OB n (e.removeCid asg cid c)
  | [], e, h => h
  | l :: c, e, h => by
    have : e.removeCid asg cid (l :: c) = (if (asg l.var).isNone then e.removeLit l cid else e).removeCid asg cid c := rfl
    rw [this]
    refine OB.removeCid ?_
    split
    · exact h.removeLit l cid
    · exact h

theorem OB.addLits {n evo cid : Nat} {el : Nat → Bool} (hc : 1 ≤ cid ∧ cid < n) : ∀ {c : Cls} {e : El}, OB n e → OB n (c.foldl (El.addLit evo el cid) e)
  | [], e, h => h
  | l :: c, e, h => by
    rw [List.foldl_cons]
    refine OB.addLits hc fun m i hi => ?_
    rcases addLit_occ evo el cid e l m with k | ⟨-, k⟩ <;> rw [k] at hi
    · exact h m i hi
    · rcases List.mem_append.1 hi with hi | hi
      · exact h m i hi
      · rw [List.mem_singleton.1 hi]; exact hc

theorem OB.addCid {evo cid : Nat} {x : DS} {e : El} (h : OB x.1.len e) (hc : 1 ≤ cid ∧ cid < x.1.len) :
    OB (addCid evo x e cid).1.1.len (addCid evo x e cid).2 ∧ (Splr.addCid evo x e cid).1.1.len = x.1.len := by
  unfold Splr.addCid
  split
  · exact ⟨h, rfl⟩
  · exact ⟨OB.addLits hc h, rfl⟩

theorem OB.linkLoop {evo cnf : Nat} : ∀ {cids : List Nat} {y z : DS × El}, (∀ i ∈ cids, 1 ≤ i ∧ i < y.1.1.len) → OB y.1.1.len y.2 →
    linkLoop evo cnf cids y = .ok z → OB z.1.1.len z.2
  | [], y, z, _, h, e => by simp only [Splr.linkLoop, Res.ok.injEq] at e; subst e; exact h
  | cid :: cids, y, z, hc, h, e => by
    unfold Splr.linkLoop at e
    split at e
    · exact OB.linkLoop (fun i hi => hc i (by simp [hi])) h e
    split at e
    · simp at e
    · have := OB.addCid (evo := evo) h (hc cid (by simp))
      exact OB.linkLoop (fun i hi => by rw [this.2]; exact hc i (by simp [hi])) this.1 e

theorem OB.prepare {enable : Bool} {evo cnf : Nat} {x : DS} {y : DS × El} (e : prepare enable evo cnf x = .ok y) : OB y.1.1.len y.2 := by
  have h0 : OB x.1.len El.new := fun l i hi => by simp [El.occ, El.new] at hi
  unfold Splr.prepare at e
  split at e
  · cases e; exact h0
  · obtain ⟨a, e1, e2⟩ := Res.bind_ok e
    split at e2
    · simp at e2
    · cases e2
      refine OB.linkLoop (y := (x, El.new)) (fun i hi => ?_) h0 e1
      unfold Cdb.ids at hi
      obtain ⟨k, hk, rfl⟩ := List.mem_iff_getElem.1 hi
      simp at hk ⊢
      omega

theorem OB.drop {x : DS} {e : El} {cid : Nat} {y : DS × El} (hw : x.1.WF) (h : OB x.1.len e) (e1 : dropClause x e cid = .ok y) :
    OB y.1.1.len y.2 := by
  unfold dropClause at e1
  obtain ⟨a, e2, e3⟩ := Res.bind_ok e1
  cases e3
  have := (Cdb.removeClause_spec ((flags_setLinked x.1 cid false).wf hw) (removeRes_ok e2).1).2.2.2.1
  simp only []
  rw [this]
  exact OB.removeCid h

theorem OB.subsume {x : DS} {e : El} {cid did : Nat} {y : DS × El} (hw : x.1.WF) (h : OB x.1.len e) (e1 : trySubsume x e cid did = .ok y) :
    OB y.1.1.len y.2 := by
  unfold trySubsume at e1
  split at e1
  · simp only [] at e1
    split at e1
    · exact OB.drop hw h e1
    · refine OB.drop ?_ ?_ e1
      · exact (flags_setC (db := x.1) (cid := cid) (c := { x.1.clause cid with learnt := false }) rfl (by simp) rfl).wf hw
      · exact h
  · cases e1; exact h

theorem OB.strengthen {x : DS} {e : El} {cid : Nat} {p : Lit} {y : DS × El} (hw : x.1.WF) (hp : p ∈ (x.1.clause cid).lits) (h : OB x.1.len e)
    (e1 : strengthen x e cid p = .ok y) : OB y.1.1.len y.2 := by
  obtain ⟨db, s⟩ := x
  obtain ⟨db1, rf, he, w, out, hk, hlr, hlen⟩ := Cdb.transformByElimination_spec hw hp
  have h1 : OB db1.len e := by rw [hlen]; exact h
  unfold Splr.strengthen at e1
  simp only [] at e1 he
  rw [he] at e1
  cases out with
  | clause h3 h' hc => cases e1; exact h1.removeLit _ _
  | registered reg a b h2 hr' h' hne hc => exact OB.drop (x := (db1, s)) w h1 e1
  | unit a h2 h' hc =>
    simp only [] at e1
    obtain ⟨z, e2, e3⟩ := Res.bind_ok e1
    have hz : OB z.1.1.len z.2 := OB.drop (x := (db1.log _, s)) (Cdb.wf_lits w (fun _ => ⟨rfl, rfl⟩) rfl rfl rfl rfl rfl) h1 e2
    split at e3
    · obtain ⟨u, e4, e5⟩ := Res.bind_ok e3
      cases e5
      have := assignRootRes_db e4
      simp only [] at *
      rw [this]; exact hz
    · cases e3; exact hz
    · simp at e3

theorem OB.resolveOne {evo v p n : Nat} {y z : DS × El} (hw : y.1.1.WF) (h : OB y.1.1.len y.2) (e1 : resolveOne evo v p n y = .ok z) :
    OB z.1.1.len z.2 := by
  unfold Splr.resolveOne at e1
  simp only [] at e1
  have hnd := mergeLits_nodup (v := v) (hw.nd p) (hw.nd n)
  split at e1
  · cases e1; exact h
  · split at e1
    · cases e1; exact h
    · simp at e1
    · obtain ⟨u, e2, e3⟩ := Res.bind_ok e1
      cases e3
      simp only []
      rw [assignRootRes_db e2]; exact h
  · split at e1
    · simp at e1
    · rename_i db1 ci e2; cases e1
      have hl := (Cdb.newClause_counters e2).2.2.2
      obtain ⟨-, ⟨_, _, _, hr, -⟩ | ⟨cid, c, hr, h0, h1, -⟩⟩ := Cdb.newClause_spec hw hnd e2
      · cases hr
      · cases hr; exact (OB.addCid (x := (db1, y.1.2)) (h.mono hl) ⟨h0, h1⟩).1
    · rename_i db1 rf hne e2; cases e1
      obtain ⟨-, ⟨_, _, _, hr, hdb, -⟩ | ⟨cid, c, hr, h0, h1, -⟩⟩ := Cdb.newClause_spec hw hnd e2
      · simp only []; rw [hdb]; exact h
      · exact (hne _ hr).elim

theorem OB.resolveAll {evo v : Nat} : ∀ {ps : List (Nat × Nat)} {y z : DS × El}, CE True y.1 → OB y.1.1.len y.2 → resolveAll evo v ps y = .ok z →
    OB z.1.1.len z.2
  | [], y, z, _, h, e => by unfold Splr.resolveAll at e; cases e; exact h
  | (p, n) :: ps, y, z, hc, h, e => by
    unfold Splr.resolveAll at e
    obtain ⟨u, e2, e3⟩ := Res.bind_ok e
    exact OB.resolveAll (ce_resolveOne hc e2) (OB.resolveOne hc.wf h e2) e3

theorem OB.dropAll : ∀ {cids : List Nat} {y z : DS × El}, CE True y.1 → OB y.1.1.len y.2 → dropAll cids y = .ok z → OB z.1.1.len z.2
  | [], y, z, _, h, e => by unfold Splr.dropAll at e; cases e; exact h
  | c :: cids, y, z, hc, h, e => by
    unfold Splr.dropAll at e
    split at e
    · exact OB.dropAll hc h e
    · obtain ⟨u, e2, e3⟩ := Res.bind_ok e
      exact OB.dropAll (ce_drop hc e2) (OB.drop hc.wf h e2) e3

theorem OB.eliminateVar {evo v : Nat} {x : DS} {e : El} {y : DS × El} (hc : CE True x) (h : OB x.1.len e) (e1 : eliminateVar evo v x e = .ok y) :
    OB y.1.1.len y.2 := by
  unfold Splr.eliminateVar at e1
  simp only [] at e1
  obtain ⟨u, e2, e3⟩ := Res.bind_ok e1
  obtain ⟨z, e4, e5⟩ := Res.bind_ok e3
  cases e5
  have hu := ce_resolveAll (y := (x, _)) hc e2
  have h1 := OB.resolveAll (y := (x, _)) hc (fun l i hi => by
    obtain ⟨w, b⟩ := l
    cases b <;> simp only [El.occ, if_true, Bool.false_eq_true, if_false, upd] at hi <;> split at hi
    · rename_i hv; subst hv; exact h ⟨w, false⟩ i (by simpa [El.occ] using (List.mem_filter.1 hi).1)
    · exact h ⟨w, false⟩ i (by simpa [El.occ] using hi)
    · rename_i hv; subst hv; exact h ⟨w, true⟩ i (by simpa [El.occ] using (List.mem_filter.1 hi).1)
    · exact h ⟨w, true⟩ i (by simpa [El.occ] using hi)) e2
  have h2 := OB.dropAll hu h1 e4
  intro l i hi
  obtain ⟨w, b⟩ := l
  cases b <;> simp only [El.occ, El.clearVar, if_true, Bool.false_eq_true, if_false, upd] at hi <;> split at hi
  · simp at hi
  · exact h2 ⟨w, false⟩ i (by simpa [El.occ] using hi)
  · simp at hi
  · exact h2 ⟨w, true⟩ i (by simpa [El.occ] using hi)

theorem OB.runCmd {evo : Nat} {y z : DS × El} {c : ECmd} (hc : CE True y.1) (h : OB y.1.1.len y.2) (e : runCmd evo y c = .ok z) :
    OB z.1.1.len z.2 := by
  unfold Splr.runCmd at e
  cases c with
  | subsume cid did =>
    simp only [] at e
    split at e
    · cases e; exact h
    · exact OB.subsume hc.wf h e
  | lifted l did =>
    simp only [] at e
    split at e
    · cases e; exact h
    · unfold tryLifted at e
      split at e
      · rename_i hl; exact OB.strengthen hc.wf hl h e
      · cases e; exact h
  | elimVar v =>
    simp only [] at e
    split at e
    · cases e; exact h
    · exact OB.eliminateVar hc h e
  | propagate =>
    obtain ⟨u, e2, e3⟩ := Res.bind_ok e
    cases e3
    have hg := propagateSandbox_good hc.rinv
    cases hp : propagateSandbox y.1.1 y.1.2 with
    | ok db s =>
      rw [hp] at e2 hg
      cases e2
      simp only []
      have := (hg.same hc.wf).len
      rw [this]; exact h
    | _ => rw [hp] at e2; simp [PRes.toRes] at e2
  | retain v sift => cases e; intro l i hi; simp only [] at hi; exact h l i (El.mem_keep.1 hi).1

theorem pureLoop_len {cnf : Nat} {e : El} : ∀ {n vi : Nat} {x y : DS}, pureLoop cnf e n vi x = .ok y → y.1.len = x.1.len
  | 0, _, x, y, e1 => by unfold pureLoop at e1; cases e1; rfl
  | n + 1, vi, x, y, e1 => by
    unfold pureLoop at e1
    split at e1
    · exact pureLoop_len e1
    split at e1
    · simp at e1
    split at e1
    · exact pureLoop_len e1
    split at e1
    · obtain ⟨u, e2, e3⟩ := Res.bind_ok e1
      rw [pureLoop_len e3, assignRootRes_db e2]; rfl
    split at e1
    · obtain ⟨u, e2, e3⟩ := Res.bind_ok e1
      rw [pureLoop_len e3, assignRootRes_db e2]; rfl
    · exact pureLoop_len e1

theorem Inner.ob {cfg : Cfg} {F : Form} {d : DS} {e : Option El} (h : Inner cfg F d e) : ∀ o, e = some o → OB d.1.len o := by
  induction h with
  | prepare _ e => intro o ho; cases ho; exact OB.prepare e
  | pure _ _ _ e3 e4 => intro o ho; cases ho; rw [pureLoop_len e4]; exact OB.prepare e3
  | @command d _ y c h e ih =>
    intro o ho; cases ho
    have k := h.kw
    exact OB.runCmd (y := (d, _)) ⟨k.1.rinv.wf, k.1.rinv.inv, k.2, k.1.wt⟩ (ih _ rfl) e
  | _ => intro o ho; cases ho

/-- **C66**: between the actions of the eliminator, the clause indices in all occurrence lists are in range: also those of
variables that are assigned, eliminated or given up, and also those of clauses removed since. -/
theorem C66_occurrences {cfg : Cfg} {F : Form} {d : DS} {e : El} (h : Inner cfg F d (some e)) :
    ∀ v, ∀ i ∈ e.pos v ++ e.neg v, 1 ≤ i ∧ i < d.1.len := by
  intro v i hi
  rcases List.mem_append.1 hi with hi | hi
  · exact h.ob e rfl ⟨v, true⟩ i (by simpa [El.occ] using hi)
  · exact h.ob e rfl ⟨v, false⟩ i (by simpa [El.occ] using hi)

/-- Two clauses have been removed; there are entries for open variables and, still, for the assigned variable 5. -/
example : ∃ d e, Inner {} (exSub.map clsOf) d (some e) ∧ e.pos 1 ≠ [] ∧ e.neg 3 ≠ [] ∧ d.2.assign 5 ≠ none ∧ e.pos 5 ≠ [] ∧ d.1.len = 7 := by
  have h : (innerOf [.subsume 2 1, .lifted ⟨5, true⟩ 4] (exSolver 5 exSub)).any (fun y =>
    decide (y.2.pos 1 ≠ [] ∧ y.2.neg 3 ≠ [] ∧ y.1.2.assign 5 ≠ none ∧ y.2.pos 5 ≠ [] ∧ y.1.1.len = 7)) = true := by decide +kernel
  obtain ⟨y, hy, h⟩ := (Option.any_eq_true _ _).1 h
  exact ⟨y.1, y.2, Inner.of (exBuilt (by decide +kernel)) hy, by simpa using h⟩

end Splr
