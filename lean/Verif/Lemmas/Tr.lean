import Verif.Lemmas.Handle
import Verif.Spec.Drat
import Verif.Lemmas.Checker
import Verif.Model.Solve
/-! Transitions that preserve what the solver knows: the common ground of propagation, learning and simplification. -/
namespace Splr
open Stk

/-! ## vocabulary -/

/-- The clauses added by a certificate. -/
def adds (cert : List CertRec) : List Cls := cert.filterMap fun r => match r with | .add c => some c | .del _ => none

@[simp] theorem adds_nil : adds [] = [] := rfl
@[simp] theorem adds_append (a b : List CertRec) : adds (a ++ b) = adds a ++ adds b := by simp [adds]
@[simp] theorem adds_add (c : Cls) : adds [.add c] = [c] := rfl
@[simp] theorem adds_del (c : Cls) : adds [.del c] = [] := rfl
@[simp] theorem adds_add_del (c d : Cls) : adds [.add c, .del d] = [c] := rfl
@[simp] theorem adds_log_add (db : Cdb) (c : Cls) : adds (db.log (.add c)).cert = adds db.cert ++ [c] := by simp [Cdb.log]

@[simp] theorem adds_map (new : List Cls) : adds (new.map .add) = new := by
  induction new with
  | nil => rfl
  | cons c new ih => simpa [adds] using ih
@[simp] theorem adds_map_del (l : List Cls) : adds (l.map .del) = [] := by
  induction l with
  | nil => rfl
  | cons c new ih => simpa [adds] using ih

/-- A root-level fact. -/
def Root (s : Stk) (l : Lit) : Prop := s.tr l ∧ s.level l.var = 0

/-- A clause that `reduce` never deletes. -/
def Prim (c : Cl) : Prop := c.learnt = false ∨ c.lits.length = 2

/-- `b` satisfies the root-level facts. -/
def SatU (s : Stk) (b : Asg) : Prop := ∀ l, Root s l → l.sat b

/-- `b` satisfies the permanent clauses. -/
def SatP (db : Cdb) (b : Asg) : Prop := ∀ i, (db.clause i).lits ≠ [] → Prim (db.clause i) → Cls.sat b (db.clause i).lits

/-- `b` satisfies all clauses. -/
def SatL (db : Cdb) (b : Asg) : Prop := ∀ i, (db.clause i).lits ≠ [] → Cls.sat b (db.clause i).lits

theorem SatL.satP {db : Cdb} {b : Asg} (h : SatL db b) : SatP db b := fun i hi _ => h i hi

/-- A variable of the problem that is not eliminated. -/
def Okv (s : Stk) (v : Nat) : Prop := 1 ≤ v ∧ v ≤ s.numVars ∧ s.elim v = false

/-- A clause that can be written: not empty, over variables up to `n`. -/
def Word (n : Nat) (c : Cls) : Prop := c ≠ [] ∧ ∀ l ∈ c, 1 ≤ l.var ∧ l.var ≤ n

/-- Clauses and assignments are about such variables only. -/
structure Dom (db : Cdb) (s : Stk) : Prop where
  cl : ∀ i, ∀ l ∈ (db.clause i).lits, Okv s l.var
  as : ∀ v, s.assign v ≠ none → Okv s v
  hp : ∀ v, v ∈ s.heap ∨ v ∈ s.saved.map Lit.var → 1 ≤ v ∧ v ≤ s.numVars
  ct : ∀ c ∈ adds db.cert, Word s.numVars c
  lv : ∀ v, s.level v ≤ s.numVars

/-- The counters of archived and eliminated variables are right. -/
def Cnt (s : Stk) : Prop := ∃ A E : List Nat, A.Nodup ∧ A.length = s.numAsserted ∧
  (∀ v, v ∈ A ↔ s.assign v ≠ none ∧ v ∉ s.trail.map Lit.var) ∧ E.Nodup ∧ E.length = s.numElim ∧
  (∀ v, v ∈ E ↔ s.elim v = true ∧ 1 ≤ v ∧ v ≤ s.numVars)

/-- Every undecided variable can be selected. -/
def HeapOK (s : Stk) : Prop := ∀ v, Okv s v → s.assign v = none → v ∈ s.heap ∨ v ∈ s.saved.map Lit.var

/-- No clause is marked as linked. -/
def Unl (db : Cdb) : Prop := ∀ i, (db.clause i).lits ≠ [] → (db.clause i).occurLinked = false

/-- `c` is a tautology, contains a root-level fact or a clause of the database. -/
def Covered (db : Cdb) (s : Stk) (c : Cls) : Prop :=
  (∃ l ∈ c, Root s l) ∨ (∃ i, (db.clause i).lits ≠ [] ∧ ∀ x ∈ (db.clause i).lits, x ∈ c) ∨ Tautology c

/-- A consistent set of literals that respects the clauses and the root-level facts. -/
def MC (db : Cdb) (s : Stk) (D : Lit → Prop) : Prop := Mod db s D ∧ Cons D

theorem Mod.resp {db : Cdb} {s : Stk} {D : Lit → Prop} (h : Mod db s D) {i : Nat} (hi : (db.clause i).lits ≠ []) : Resp D (db.clause i).lits :=
  ⟨h.cl i, h.conf i hi⟩

theorem mod_of {db : Cdb} {s : Stk} {D : Lit → Prop} (h1 : ∀ i, (db.clause i).lits ≠ [] → Resp D (db.clause i).lits)
    (h2 : ∀ l, Root s l → D l) : Mod db s D :=
  ⟨fun i x hx => (h1 i (List.ne_nil_of_mem hx)).1 x hx, fun i hi => (h1 i hi).2, fun l a b => h2 l ⟨a, b⟩⟩

theorem Resp.congr {D : Lit → Prop} {c d : Cls} (h : Resp D c) (e : ∀ x, x ∈ c ↔ x ∈ d) : Resp D d :=
  ⟨fun x hx hy => h.1 x ((e x).2 hx) fun y hc => hy y ((e y).1 hc), by obtain ⟨y, h1, h2⟩ := h.2; exact ⟨y, (e y).1 h1, h2⟩⟩

theorem Resp.of_sat {b : Asg} {c : Cls} (h : Cls.sat b c) : Resp (fun l => l.sat b) c := by
  obtain ⟨z, hz, hs⟩ := h
  refine ⟨fun x _ hy => ?_, z, hz, by simpa using hs⟩
  by_cases e : z = x
  · subst e; exact hs
  · have := hy z hz e; simp at this; exact absurd hs this

theorem cons_of_asg (b : Asg) : Cons (fun l => l.sat b) := fun l h h2 => by simp at h2; exact h2 h

theorem mc_of_asg {db : Cdb} {s : Stk} {b : Asg} (h : SatL db b) (hu : SatU s b) : MC db s (fun l => l.sat b) :=
  ⟨Mod.of_asg h (fun l h1 h2 => hu l ⟨h1, h2⟩), cons_of_asg b⟩

/-- The clauses of `new` are RUP, one after another. -/
def Chain (M : (Lit → Prop) → Prop) (new : List Cls) : Prop :=
  ∀ pre c post, new = pre ++ c :: post → ∀ D, M D → (∀ d ∈ pre, Resp D d) → (∀ x ∈ c, D x.neg) → False

theorem Chain.nil {M : (Lit → Prop) → Prop} : Chain M [] := by intro pre c post e; simp at e

theorem Chain.one {M : (Lit → Prop) → Prop} {c : Cls} (h : ∀ D, M D → (∀ x ∈ c, D x.neg) → False) : Chain M [c] := by
  intro pre d post e D hD _ hx
  rcases pre with _ | ⟨p, pre⟩
  · simp at e; rw [← e.1] at hx; exact h D hD hx
  · simp at e

theorem Chain.append {M M' : (Lit → Prop) → Prop} {new new' : List Cls} (h : Chain M new) (h' : Chain M' new')
    (hM : ∀ D, M D → (∀ d ∈ new, Resp D d) → M' D) : Chain M (new ++ new') := by
  intro pre c post e D hD hp hx
  rcases List.append_eq_append_iff.1 e with ⟨a', e1, e2⟩ | ⟨c', e1, e2⟩
  · subst e1
    exact h' a' c post e2 D (hM D hD fun d hd => hp d (by simp [hd])) (fun d hd => hp d (by simp [hd])) hx
  · rcases c' with _ | ⟨x, c'⟩
    · simp at e1 e2; subst e1
      exact h' [] c post (by simpa using e2.symm) D (hM D hD hp) (by simp) hx
    · simp at e2; obtain ⟨rfl, -⟩ := e2
      exact h pre _ _ e1 D hD hp hx

theorem Chain.sat {b : Asg} {M : (Lit → Prop) → Prop} {new : List Cls} (h : Chain M new) (hM : M (fun l => l.sat b)) :
    ∀ c ∈ new, Cls.sat b c := by
  induction new using List.reverseRecOn with
  | nil => simp
  | append_singleton new c ih =>
    have ih := ih fun pre d post e => h pre d (post ++ [c]) (by rw [e]; simp)
    intro d hd
    rcases List.mem_append.1 hd with hd | hd
    · exact ih d hd
    · simp at hd; subst hd
      by_contra hc
      refine h new d [] rfl _ hM (fun e he => .of_sat (ih e he)) fun x hx => ?_
      have : ¬ x.sat b := fun hs => hc ⟨x, hx, hs⟩
      simpa using this

/-! ## the stack part -/

/-- Variables, counters and the decision queue are kept. -/
structure SP (s s' : Stk) : Prop where
  elim : s'.elim = s.elim
  numVars : s'.numVars = s.numVars
  cnt : Cnt s → Cnt s'
  heap : HeapOK s → HeapOK s'

theorem SP.refl (s : Stk) : SP s s := ⟨rfl, rfl, id, id⟩

theorem SP.trans {a b c : Stk} (h1 : SP a b) (h2 : SP b c) : SP a c :=
  ⟨h2.elim.trans h1.elim, h2.numVars.trans h1.numVars, h2.cnt ∘ h1.cnt, h2.heap ∘ h1.heap⟩

theorem SP.okv {s s' : Stk} (h : SP s s') {v : Nat} : Okv s' v ↔ Okv s v := by unfold Okv; rw [h.elim, h.numVars]

/-- Only bookkeeping changes. -/
theorem SP.of_eq {s s' : Stk} (h1 : s'.assign = s.assign) (h2 : s'.trail = s.trail) (h3 : s'.elim = s.elim) (h4 : s'.numVars = s.numVars)
    (h5 : s'.numAsserted = s.numAsserted) (h6 : s'.numElim = s.numElim)
    (hh : ∀ v, s.assign v = none → v ∈ s.heap ∨ v ∈ s.saved.map Lit.var → v ∈ s'.heap ∨ v ∈ s'.saved.map Lit.var) : SP s s' := by
  refine ⟨h3, h4, ?_, ?_⟩
  · unfold Cnt; rw [h1, h2, h3, h4, h5, h6]; exact id
  · intro h v hv ha
    rw [h1] at ha
    exact hh v ha (h v (by unfold Okv at *; rw [h3, h4] at hv; exact hv) ha)

/-- One variable gets assigned. -/
theorem SP.push {s s' : Stk} {l : Lit} (hn : s.assign l.var = none) (h1 : s'.assign = upd s.assign l.var (some l.pos))
    (h2 : s'.trail = s.trail ++ [l]) (h3 : s'.elim = s.elim) (h4 : s'.numVars = s.numVars) (h5 : s'.numAsserted = s.numAsserted)
    (h6 : s'.numElim = s.numElim) (h7 : s'.saved = s.saved) (hh : ∀ v, v ∈ s.heap → v ≠ l.var → v ∈ s'.heap) : SP s s' := by
  refine ⟨h3, h4, ?_, ?_⟩
  · rintro ⟨A, E, a1, a2, a3, e1, e2, e3⟩
    refine ⟨A, E, a1, by rw [h5]; exact a2, fun v => ?_, e1, by rw [h6]; exact e2, by rw [h3, h4]; exact e3⟩
    rw [a3, h1, h2]
    by_cases hne : v = l.var
    · subst hne; simp [hn]
    · rw [upd_of_ne _ _ hne]
      simp only [List.map_append, List.mem_append, not_or, List.map_cons, List.map_nil, List.mem_singleton, hne, not_false_eq_true, and_true]
  · intro h v hv ha
    have hne : v ≠ l.var := by rintro rfl; rw [h1] at ha; simp [upd] at ha
    rw [h1, upd_of_ne _ _ hne] at ha
    rcases h v (by unfold Okv at *; rw [h3, h4] at hv; exact hv) ha with hm | hm
    · exact .inl (hh v hm hne)
    · right; rw [h7]; exact hm

theorem mem_insertHeaps {s : Stk} : ∀ {vs : List Nat} {v : Nat}, v ∈ (s.insertHeaps vs).heap ↔ v ∈ s.heap ∨ v ∈ vs := by
  intro vs
  unfold insertHeaps
  simp only []
  induction vs generalizing s with
  | nil => simp
  | cons w vs ih =>
    intro v
    have := ih (s := { s with heap := s.heap.insert w }) (v := v)
    simp only [List.foldl_cons] at this ⊢
    rw [this]; simp only [List.mem_insert_iff, List.mem_cons]; tauto

/-- Backtracking. -/
theorem SP.cut {db : Cdb} {s s' : Stk} (hi : Inv db s) {lv k : Nat} (c : Cut s s' lv k) (h3 : s'.elim = s.elim) (h4 : s'.numVars = s.numVars)
    (h5 : s'.numAsserted = s.numAsserted) (h6 : s'.numElim = s.numElim)
    (hh : ∀ v, v ∈ s.heap ∨ v ∈ s.saved.map Lit.var ∨ v ∈ (s.trail.drop k).map Lit.var → v ∈ s'.heap ∨ v ∈ s'.saved.map Lit.var) :
    SP s s' := by
  refine ⟨h3, h4, ?_, ?_⟩
  · rintro ⟨A, E, a1, a2, a3, e1, e2, e3⟩
    refine ⟨A, E, a1, by rw [h5]; exact a2, fun v => ?_, e1, by rw [h6]; exact e2, by rw [h3, h4]; exact e3⟩
    rw [a3, c.tr]
    by_cases hd : v ∈ (s.trail.drop k).map Lit.var
    · rw [c.as]; simp only []; rw [if_pos hd]
      exact ⟨fun h => absurd ((List.drop_sublist k s.trail).map Lit.var |>.subset hd) h.2, fun h => absurd rfl h.1⟩
    · rw [(c.same hd).1]
      have : v ∈ s.trail.map Lit.var ↔ v ∈ (s.trail.take k).map Lit.var := by
        conv_lhs => rw [← List.take_append_drop k s.trail, List.map_append, List.mem_append]
        exact ⟨fun h => h.resolve_right hd, .inl⟩
      rw [this]
  · intro h v hv ha
    by_cases hd : v ∈ (s.trail.drop k).map Lit.var
    · exact hh v (.inr (.inr hd))
    · rw [(c.same hd).1] at ha
      exact hh v ((h v (by unfold Okv at *; rw [h3, h4] at hv; exact hv) ha).imp id .inl)

theorem SP.clearSaved (s : Stk) : SP s s.clearSaved := by
  refine SP.of_eq rfl rfl rfl rfl rfl rfl fun v _ h => .inl ?_
  exact mem_insertHeaps.2 h

theorem SP.backtrackSandbox {db : Cdb} {s : Stk} (hi : Inv db s) : SP s s.backtrackSandbox := by
  by_cases hl : s.lim = []
  · have : s.backtrackSandbox = s := by simp [Stk.backtrackSandbox, hl]
    rw [this]; exact .refl s
  · refine SP.cut hi (backtrackSandbox_cut hl).1 ?_ ?_ ?_ ?_ ?_
    all_goals simp only [Stk.backtrackSandbox, hl, if_false]
    · rfl
    · rfl
    · rfl
    · rfl
    intro v hv
    have e1 : v ∈ (s.insertHeaps ((s.trail.drop (s.lim.getD 0 0)).map Lit.var)).heap ↔ _ := mem_insertHeaps
    rcases hv with h | h | h
    · exact .inl (e1.2 (.inl h))
    · exact .inr h
    · exact .inl (e1.2 (.inr h))

theorem SP.cancelUntil {db : Cdb} {s : Stk} (hi : Inv db s) (low : Nat → Bool) (lv : Nat) : SP s (s.cancelUntil low lv) := by
  by_cases hl : s.dl ≤ lv
  · rw [cancelUntil_noop hl]; exact .refl _
  · obtain ⟨-, -, -, -, -, -, f7, f8, f9, f10⟩ := saveTrail_fields s low lv
    have hc := cancelUntil_cut (s := s) (low := low) (lv := lv) (by omega)
    refine SP.cut hi hc.1 ?_ ?_ ?_ ?_ ?_
    all_goals simp only [Stk.cancelUntil, hl, if_false, unassignFrom]
    · exact f7
    · exact f8
    · exact f9
    · exact f10
    intro v hv
    unfold saveTrail; simp only []
    split
    · rename_i h2
      set lim := s.lim.getD lv 0
      set lim2 := s.lim.getD (s.dl - 2) 0
      simp only []
      have e1 : ∀ t : Stk, ∀ vs, v ∈ (t.insertHeaps vs).heap ↔ v ∈ t.heap ∨ v ∈ vs := fun t vs => mem_insertHeaps
      have e2 : v ∈ s.clearSaved.heap ↔ v ∈ s.heap ∨ v ∈ s.saved.map Lit.var := mem_insertHeaps
      rw [e1, e1, e2]
      rcases hv with h | h | h
      · exact .inl (.inl (.inl (.inl h)))
      · exact .inl (.inl (.inl (.inr h)))
      · by_cases hm : v ∈ ((s.trail.drop lim).take (lim2 - lim)).map Lit.var
        · exact .inr hm
        · left; right
          obtain ⟨l, hl1, rfl⟩ := List.mem_map.1 h
          rw [← List.take_append_drop (lim2 - lim) (s.trail.drop lim), List.mem_append] at hl1
          rcases hl1 with h1 | h1
          · exact absurd (List.mem_map_of_mem h1) hm
          · rw [List.drop_drop] at h1
            by_cases hle : lim ≤ lim2
            · rw [show lim + (lim2 - lim) = lim2 by omega] at h1
              exact List.mem_map_of_mem h1
            · rw [show lim + (lim2 - lim) = lim by omega] at h1
              have : l ∈ s.trail.drop lim2 := by
                have e3 : s.trail.drop lim = (s.trail.drop lim2).drop (lim - lim2) := by
                  rw [List.drop_drop]; congr 1; omega
                rw [e3] at h1; exact List.mem_of_mem_drop h1
              exact List.mem_map_of_mem this
    · have e2 : v ∈ s.clearSaved.heap ↔ v ∈ s.heap ∨ v ∈ s.saved.map Lit.var := mem_insertHeaps
      have e1 : v ∈ (s.clearSaved.insertHeaps ((s.trail.drop (s.lim.getD lv 0)).map Lit.var)).heap ↔ _ := mem_insertHeaps
      left; rw [e1, e2]; tauto

theorem SP.assignImpl {s : Stk} {l : Lit} (hn : s.assign l.var = none) (r : Reason) (lv : Nat) : SP s (s.assignImpl l r lv) := by
  obtain ⟨f1, f2, f3, f4, f5, f6, f7, f8, f9, f10⟩ := assignImpl_fields s l r lv
  refine SP.push hn f1 f4 f9 f10 ?_ ?_ f7 fun v hv hne => ?_
  all_goals unfold Stk.assignImpl; simp only []; split <;> try rfl
  · simp only [makeAsserted, List.mem_filter]; exact ⟨hv, by simpa using hne⟩
  · exact hv

theorem SP.assignDecision {s : Stk} {l : Lit} (hn : s.assign l.var = none) : SP s (s.assignDecision l) :=
  SP.push hn rfl rfl rfl rfl rfl rfl rfl fun _ h _ => h

theorem PStep.sp {db s db' s'} (h : PStep db s db' s') : SP s s' := by
  cases h with
  | restore => exact .refl _
  | move => exact .refl _
  | swap => exact .refl _
  | imply l r hn hr => exact SP.assignImpl hn r _
  | advance => exact SP.of_eq rfl rfl rfl rfl rfl rfl fun _ _ h => h
  | drop l todo h ht =>
    refine SP.of_eq rfl rfl rfl rfl rfl rfl fun v ha hv => ?_
    rcases hv with hv | hv
    · exact .inl hv
    · right; rw [h] at hv
      rcases List.mem_cons.1 hv with e | hv
      · rw [e] at ha; exact absurd ha (tr_assigned ht)
      · exact hv
  | heap v =>
    refine SP.of_eq rfl rfl rfl rfl rfl rfl fun w _ h => ?_
    rcases h with h | h
    · left; simp only [insertHeap, List.mem_insert_iff]; exact .inr h
    · exact .inr h
  | clear => exact .clearSaved s

theorem PSteps.sp {db s db' s'} (h : PSteps db s db' s') : SP s s' := by
  induction h with
  | refl => exact .refl _
  | cons h _ ih => exact h.sp.trans ih

/-! ## the checker -/

/-- A checker with the clauses `K` keeps up with the solver: it lists all clauses of the database, and it has derived the
root-level facts or a conflict. -/
structure Foll (K : Form) (db : Cdb) (s : Stk) : Prop where
  live : db.lives ≤ bag K
  root : ∀ l, Root s l → Up K l ∨ Clash K

theorem Foll.mc {K : Form} {db : Cdb} {s : Stk} (hw : db.WF) (h : Foll K db s) {D : Lit → Prop} (hc : Cons D) (hr : ∀ d ∈ K, Resp D d) : MC db s D := by
  refine ⟨mod_of (fun i hi => ?_) fun l hl => ?_, hc⟩
  · obtain ⟨d, hd, hp⟩ := mem_bag.1 (Multiset.mem_of_le h.live (mem_lives hw hi))
    exact (hr d hd).congr fun x => hp.mem_iff
  · rcases h.root l hl with hu | hu
    · exact hu.closed hr
    · exfalso
      rcases hu with ⟨d, hd, hx⟩ | ⟨l, h1, h2⟩
      · obtain ⟨y, hy, hn⟩ := (hr d hd).2
        exact hn (Up.closed hr (hx y hy))
      · exact hc l (Up.closed hr h1) (Up.closed hr h2)

theorem listedAll_append (b : Bool) (K : Form) (r1 r2 : List CertRec) : listedAll b K (r1 ++ r2) = listedAll b (listedAll b K r1) r2 := by
  simp [listedAll]

theorem Accepted.append {b : Bool} : ∀ {r1 r2 : List CertRec} {K : Form}, Accepted b K r1 → Accepted b (listedAll b K r1) r2 → Accepted b K (r1 ++ r2)
  | [], _, _, _, h2 => h2
  | r :: r1, r2, K, h1, h2 => ⟨h1.1, Accepted.append (r1 := r1) (K := listed b K r) h1.2 h2⟩

theorem listedAll_adds {b : Bool} : ∀ {new : List Cls} {K : Form}, ∀ d, d ∈ listedAll b K (new.map .add) ↔ d ∈ new ∨ d ∈ K
  | [], K, d => by simp [listedAll]
  | c :: new, K, d => by
    have := listedAll_adds (b := b) (new := new) (K := c :: K) d
    simp only [List.map_cons, listedAll, List.foldl_cons, listed] at this ⊢
    rw [this]; simp only [List.mem_cons]; tauto

theorem bag_adds {b : Bool} : ∀ {new : List Cls} {K : Form}, bag (listedAll b K (new.map .add)) = bag K + bag new
  | [], K => by simp [listedAll]
  | c :: new, K => by
    have := bag_adds (b := b) (new := new) (K := c :: K)
    simp only [List.map_cons, listedAll, List.foldl_cons, listed] at this ⊢
    rw [this]; simp only [bag_cons, Multiset.cons_add, Multiset.add_cons]

/-- A chain of clauses is accepted. -/
theorem Foll.chain {db : Cdb} {s : Stk} (hw : db.WF) {K : Form} (h : Foll K db s) : ∀ {new pre : List Cls} {K' : Form}, (∀ d, d ∈ K' ↔ d ∈ pre ∨ d ∈ K) →
    Chain (MC db s) (pre ++ new) → Accepted false K' (new.map .add)
  | [], _, _, _, _ => trivial
  | c :: new, pre, K', hk, hc => by
    refine ⟨.inl (rup_of_no_closed fun D hD hr hx => ?_), ?_⟩
    · exact hc pre c new rfl D (h.mc hw hD fun d hd => hr d ((hk d).2 (.inr hd))) (fun d hd => hr d ((hk d).2 (.inl hd))) hx
    · refine Foll.chain hw h (new := new) (pre := pre ++ [c]) (K' := c :: K') (fun d => ?_) (by simpa using hc)
      simp only [List.mem_cons, hk d, List.mem_append, List.not_mem_nil, or_false]; tauto

/-- Deletions are accepted; what was derived stays derived. -/
theorem dels_ok : ∀ {dels : List Cls} {K : Form} {M : Multiset (Multiset Lit)}, (∀ c ∈ dels, c ≠ []) → M + bag dels ≤ bag K →
    Accepted false K (dels.map .del) ∧ M ≤ bag (listedAll false K (dels.map .del)) ∧ (∀ l, Up K l → Up (listedAll false K (dels.map .del)) l) ∧
      (Clash K → Clash (listedAll false K (dels.map .del)))
  | [], K, M, _, h => ⟨trivial, by simpa [listedAll] using h, fun _ h => h, id⟩
  | c :: dels, K, M, hn, h => by
    have hm : (c : Multiset Lit) ∈ bag K := by
      refine Multiset.mem_of_le h ?_
      simp
    have hsub : M + bag dels ≤ bag (listed false K (.del c)) := by
      have h1 : M + bag dels ≤ bag (dropListed K c) := by
        rw [bag_drop hm, bag_cons, Multiset.add_cons] at h
        exact (Multiset.cons_le_cons_iff _).1 h
      simp only [listed]
      split
      · rw [bag_drop hm]; exact h1.trans (Multiset.le_cons_self _ _)
      · exact h1
    obtain ⟨a1, a2, a3, a4⟩ := dels_ok (dels := dels) (fun c hc => hn c (by simp [hc])) hsub
    exact ⟨⟨mem_bag.1 hm, a1⟩, a2, fun l hl => a3 l hl.listed, fun hc => a4 (hc.listed (by simpa using hn c (by simp)))⟩

/-- The lines of a transition, for a checker that keeps up. -/
def Sim (db : Cdb) (s : Stk) (db' : Cdb) (s' : Stk) : Prop :=
  ∃ rs, db'.cert = db.cert ++ rs ∧ ∀ K, Foll K db s → Accepted false K rs ∧ Foll (listedAll false K rs) db' s'

/-- The lines up to a refutation. -/
def SimBad (db : Cdb) (s : Stk) (db' : Cdb) : Prop :=
  ∃ rs, db'.cert = db.cert ++ rs ∧ ∀ K, Foll K db s → Accepted false K rs ∧ Clash (listedAll false K rs)

theorem Sim.trans {db s db1 s1 db2 s2} (h1 : Sim db s db1 s1) (h2 : Sim db1 s1 db2 s2) : Sim db s db2 s2 := by
  obtain ⟨r1, e1, h1⟩ := h1
  obtain ⟨r2, e2, h2⟩ := h2
  refine ⟨r1 ++ r2, by rw [e2, e1, List.append_assoc], fun K hK => ?_⟩
  obtain ⟨a1, f1⟩ := h1 K hK
  obtain ⟨a2, f2⟩ := h2 _ f1
  exact ⟨a1.append a2, by rw [listedAll_append]; exact f2⟩

theorem Sim.bad {db s db1 s1 db2} (h1 : Sim db s db1 s1) (h2 : SimBad db1 s1 db2) : SimBad db s db2 := by
  obtain ⟨r1, e1, h1⟩ := h1
  obtain ⟨r2, e2, h2⟩ := h2
  refine ⟨r1 ++ r2, by rw [e2, e1, List.append_assoc], fun K hK => ?_⟩
  obtain ⟨a1, f1⟩ := h1 K hK
  obtain ⟨a2, f2⟩ := h2 _ f1
  exact ⟨a1.append a2, by rw [listedAll_append]; exact f2⟩

theorem Foll.derive {db : Cdb} {s : Stk} (hw : db.WF) {K : Form} (h : Foll K db s) {new : List Cls} {s' : Stk}
    (hm : ∀ D, MC db s D → (∀ c ∈ new, Resp D c) → ∀ l, Root s' l → D l) :
    ∀ l, Root s' l → Up (listedAll false K (new.map .add)) l ∨ Clash (listedAll false K (new.map .add)) := by
  intro l hl
  by_cases hc : Clash (listedAll false K (new.map .add))
  · exact .inr hc
  · left
    obtain ⟨c1, c2⟩ := up_closed hc
    exact hm _ (h.mc hw c1 fun d hd => c2 d ((listedAll_adds d).2 (.inr hd))) (fun c hc => c2 c ((listedAll_adds c).2 (.inl hc))) l hl

/-- Clauses are added, then clauses are deleted. -/
theorem Sim.mk {db : Cdb} {s : Stk} {db' : Cdb} {s' : Stk} (hw : db.WF) (new dels : List Cls)
    (hcert : db'.cert = db.cert ++ (new.map .add ++ dels.map .del)) (hch : Chain (MC db s) new)
    (hm : ∀ D, MC db s D → (∀ c ∈ new, Resp D c) → ∀ l, Root s' l → D l) (hd : ∀ c ∈ dels, c ≠ [])
    (hlives : db'.lives + bag dels ≤ db.lives + bag new) : Sim db s db' s' := by
  refine ⟨_, hcert, fun K hK => ?_⟩
  have a1 : Accepted false K (new.map .add) := Foll.chain hw hK (pre := []) (by simp) hch
  have hb : db'.lives + bag dels ≤ bag (listedAll false K (new.map .add)) := by
    rw [bag_adds]; exact hlives.trans (Multiset.add_le_add_right hK.live)
  obtain ⟨b1, b2, b3, b4⟩ := dels_ok hd hb
  refine ⟨a1.append b1, ?_⟩
  rw [listedAll_append]
  exact ⟨b2, fun l hl => (hK.derive hw hm l hl).imp (b3 l) b4⟩

/-- Clauses are added, clauses are deleted, and there is no way out. -/
theorem SimBad.mk {db : Cdb} {s : Stk} {db' : Cdb} (hw : db.WF) (new dels : List Cls)
    (hcert : db'.cert = db.cert ++ (new.map .add ++ dels.map .del)) (hch : Chain (MC db s) new)
    (hm : ∀ D, MC db s D → (∀ c ∈ new, Resp D c) → False) (hd : ∀ c ∈ dels, c ≠ []) (hlives : bag dels ≤ db.lives + bag new) : SimBad db s db' := by
  refine ⟨_, hcert, fun K hK => ?_⟩
  have a1 : Accepted false K (new.map .add) := Foll.chain hw hK (pre := []) (by simp) hch
  have hb : 0 + bag dels ≤ bag (listedAll false K (new.map .add)) := by
    rw [bag_adds, zero_add]; exact hlives.trans (Multiset.add_le_add_right hK.live)
  obtain ⟨b1, -, -, b4⟩ := dels_ok hd hb
  refine ⟨a1.append b1, ?_⟩
  rw [listedAll_append]
  refine b4 (clash_of_no_closed fun D hD hr => ?_)
  exact hm D (hK.mc hw hD fun d hd => hr d ((listedAll_adds d).2 (.inr hd))) fun c hc => hr c ((listedAll_adds c).2 (.inl hc))

/-! ## transitions -/

/-- A transition. `k`: clauses are only replaced by stronger ones, and none is marked as linked; `r`: nothing is added to an empty saved trail. -/
structure Tr (k r : Bool) (db : Cdb) (s : Stk) (db' : Cdb) (s' : Stk) : Prop where
  rinv : RInv db' s'
  new : ∃ new, adds db'.cert = adds db.cert ++ new ∧ Chain (MC db s) new ∧
    (∀ D, MC db s D → (∀ c ∈ new, Resp D c) → Mod db' s' D) ∧ (k = true → ∀ c ∈ new, Covered db' s' c)
  sim : db.WF → Sim db s db' s'
  back : ∀ b, SatP db' b → SatU s' b → SatP db b
  cov : k = true → ∀ c, Covered db s c → Covered db' s' c
  root : ∀ l, Root s l → Root s' l
  sp : SP s s'
  dom : Dom db s → Dom db' s'
  unl : k = true → Unl db → Unl db'
  sv : r = true → s.saved = [] → s'.saved = []

theorem Tr.trans {k r : Bool} {db : Cdb} {s : Stk} {db1 : Cdb} {s1 : Stk} {db2 : Cdb} {s2 : Stk} (h1 : Tr k r db s db1 s1)
    (h2 : Tr k r db1 s1 db2 s2) : Tr k r db s db2 s2 := by
  obtain ⟨n1, a1, c1, m1, v1⟩ := h1.new
  obtain ⟨n2, a2, c2, m2, v2⟩ := h2.new
  have hM : ∀ D, MC db s D → (∀ d ∈ n1, Resp D d) → MC db1 s1 D := fun D hD hr => ⟨m1 D hD hr, hD.2⟩
  refine ⟨h2.rinv, ⟨n1 ++ n2, by rw [a2, a1, List.append_assoc], c1.append c2 hM, ?_, ?_⟩, fun hw => (h1.sim hw).trans (h2.sim h1.rinv.wf), ?_, ?_, ?_, h1.sp.trans h2.sp, h2.dom ∘ h1.dom, fun hk => h2.unl hk ∘ h1.unl hk, ?_⟩
  · intro D hD hr
    exact m2 D (hM D hD fun d hd => hr d (by simp [hd])) fun d hd => hr d (by simp [hd])
  · intro hk c hc
    rcases List.mem_append.1 hc with hc | hc
    · exact h2.cov hk c (v1 hk c hc)
    · exact v2 hk c hc
  · intro b hp hu
    exact h1.back b (h2.back b hp hu) fun l hl => hu l (h2.root l hl)
  · exact fun hk c hc => h2.cov hk c (h1.cov hk c hc)
  · exact fun l hl => h2.root l (h1.root l hl)
  · exact fun hr hs => h2.sv hr (h1.sv hr hs)

/-- Weaker claims. -/
theorem Tr.weaken {k r k' r' : Bool} {db : Cdb} {s : Stk} {db1 : Cdb} {s1 : Stk} (h : Tr k r db s db1 s1) (hk : k' = true → k = true)
    (hr : r' = true → r = true) : Tr k' r' db s db1 s1 := by
  obtain ⟨n1, a1, c1, m1, v1⟩ := h.new
  exact ⟨h.rinv, ⟨n1, a1, c1, m1, fun e => v1 (hk e)⟩, h.sim, h.back, fun e => h.cov (hk e), h.root, h.sp, h.dom, fun e => h.unl (hk e), fun e => h.sv (hr e)⟩

theorem covered_same {db db' : Cdb} {s s' : Stk} (hc : ∀ i, ∀ x, x ∈ (db'.clause i).lits ↔ x ∈ (db.clause i).lits)
    (hr : ∀ l, Root s l → Root s' l) {c : Cls} (h : Covered db s c) : Covered db' s' c := by
  rcases h with ⟨l, hl, h⟩ | ⟨i, hi, h⟩ | h
  · exact .inl ⟨l, hl, hr l h⟩
  · refine .inr (.inl ⟨i, ?_, fun x hx => h x ((hc i x).1 hx)⟩)
    obtain ⟨x, hx⟩ := List.exists_mem_of_ne_nil _ hi
    exact List.ne_nil_of_mem ((hc i x).2 hx)
  · exact .inr (.inr h)

theorem sat_same {b : Asg} {c d : Cls} (h : ∀ x, x ∈ c ↔ x ∈ d) : Cls.sat b c ↔ Cls.sat b d := by
  unfold Cls.sat; constructor
  · rintro ⟨l, hl, hs⟩; exact ⟨l, (h l).1 hl, hs⟩
  · rintro ⟨l, hl, hs⟩; exact ⟨l, (h l).2 hl, hs⟩

theorem nil_same {c d : Cls} (h : ∀ x, x ∈ c ↔ x ∈ d) (hc : c ≠ []) : d ≠ [] := by
  obtain ⟨x, hx⟩ := List.exists_mem_of_ne_nil _ hc
  exact List.ne_nil_of_mem ((h x).1 hx)

theorem length_le_of_vars {l : List Nat} {n : Nat} (h : l.Nodup) (hb : ∀ v ∈ l, 1 ≤ v ∧ v ≤ n) : l.length ≤ n := by
  have := (List.subperm_of_subset h (l₂ := (List.range n).map (· + 1)) fun v hv => by
    obtain ⟨a, b⟩ := hb v hv
    simp only [List.mem_map, List.mem_range]; exact ⟨v - 1, by omega, by omega⟩).length_le
  simpa using this

theorem Stk.Inv.dl_le {db : Cdb} {s : Stk} (hi : Inv db s) (hd : ∀ v, s.assign v ≠ none → 1 ≤ v ∧ v ≤ s.numVars) : s.dl ≤ s.numVars := by
  have ht := length_le_of_vars hi.nd (n := s.numVars) fun v hv => by
    obtain ⟨l, hl, rfl⟩ := List.mem_map.1 hv
    exact hd l.var (tr_assigned (hi.tv l hl))
  rw [List.length_map] at ht
  refine Nat.le_trans ?_ ht
  have hn : s.lim.Nodup := hi.limInc.imp (fun h => Nat.ne_of_lt h)
  have := (List.subperm_of_subset hn (l₂ := List.range s.trail.length) fun k hk => List.mem_range.2 (hi.limLt k hk)).length_le
  simpa [Stk.dl] using this

/-- The clauses stay the same (up to the order of literals), the stack changes. -/
theorem Tr.stk {k r : Bool} {db : Cdb} {s : Stk} {db' : Cdb} {s' : Stk} (hi : RInv db' s') (hs : Cdb.Same db db')
    (hroot : ∀ l, Root s l → Root s' l) (hnew : ∀ D, MC db s D → ∀ l, Root s' l → D l) (sp : SP s s')
    (hdom : Dom db s → ∀ v, s'.assign v ≠ none → Okv s v) (sv : r = true → s.saved = [] → s'.saved = [])
    (hq : ∀ v, v ∈ s'.heap ∨ v ∈ s'.saved.map Lit.var → v ∈ s.heap ∨ v ∈ s.saved.map Lit.var ∨ s.assign v ≠ none)
    (hlv : ∀ v, s'.level v = s.level v ∨ s'.level v ≤ s'.dl := by exact fun _ => .inl rfl) : Tr k r db s db' s' := by
  have hm : ∀ i, ∀ x, x ∈ (db'.clause i).lits ↔ x ∈ (db.clause i).lits := fun i x => hs.mem i x
  refine ⟨hi, ⟨[], by rw [hs.cert]; simp, .nil, fun D hD _ => ?_, by simp⟩, fun hw => ?_, ?_, fun _ c hc => covered_same hm hroot hc, hroot, sp, ?_, ?_, sv⟩
  · refine mod_of (fun i hne => ?_) (hnew D hD)
    exact (hD.1.resp (nil_same (hm i) hne)).congr fun x => (hm i x).symm
  · exact Sim.mk hw [] [] (by rw [hs.cert]; simp) .nil (fun D hD _ => hnew D hD) (by simp) (by rw [lives_perm hw hi.wf hs.perm])
  · intro b hp hu i hne hpr
    refine (sat_same (hm i)).1 (hp i (nil_same (fun x => (hm i x).symm) hne) ?_)
    unfold Prim at *; rw [hs.learnt, (hs.perm i).length_eq]; exact hpr
  · intro hd
    refine ⟨fun i l hl => sp.okv.2 (hd.cl i l ((hm i l).1 hl)), fun v hv => sp.okv.2 (hdom hd v hv), fun v hv => ?_, by
      rw [hs.cert, sp.numVars]; exact hd.ct, fun v => ?_⟩
    rotate_left
    · rcases hlv v with h | h
      · rw [h, sp.numVars]; exact hd.lv v
      · exact h.trans (hi.inv.dl_le fun w hw => by have := hdom hd w hw; rw [sp.numVars]; exact ⟨this.1, this.2.1⟩)
    rw [sp.numVars]
    rcases hq v hv with h | h | h
    · exact hd.hp v (.inl h)
    · exact hd.hp v (.inr h)
    · exact ⟨(hd.as v h).1, (hd.as v h).2.1⟩
  · intro _ hu i hne
    rw [hs.linked]; exact hu i (nil_same (hm i) hne)

theorem Tr.refl {k r : Bool} {db : Cdb} {s : Stk} (hi : RInv db s) : Tr k r db s db s :=
  Tr.stk hi (.refl _) (fun _ h => h) (fun _ hD _ hl => hD.1.root _ hl.1 hl.2) (.refl _) (fun hd v hv => hd.as v hv) (fun _ h => h)
    fun v hv => hv.imp id .inl

theorem implied_mem {db : Cdb} {s : Stk} {l : Lit} {r : Reason} (h : Implied db s l r) : ∃ i, l ∈ (db.clause i).lits := by
  cases r with
  | binary m => obtain ⟨⟨i, h⟩, -⟩ := h; exact ⟨i, by rcases h with e | e <;> rw [e] <;> simp⟩
  | impl cid => obtain ⟨rest, e, -⟩ := h; exact ⟨cid, by rw [e]; simp⟩
  | _ => exact h.elim

/-- A literal implied at the root level is in every `D`. -/
theorem implied_forced {db : Cdb} {s : Stk} {D : Lit → Prop} (h : Mod db s D) {l : Lit} {r : Reason} (hr : Implied db s l r)
    (hlv : ∀ m, s.tr m → s.level m.var = 0) : D l := by
  cases r with
  | binary m =>
    obtain ⟨⟨i, hc⟩, hm⟩ := hr
    refine h.cl i l (by rcases hc with e | e <;> rw [e] <;> simp) fun y hy hne => ?_
    have : y = l ∨ y = m.neg := by rcases hc with e | e <;> rw [e] at hy <;> simp at hy <;> tauto
    rcases this with rfl | rfl
    · exact absurd rfl hne
    · simpa using h.root m hm (hlv m hm)
  | impl cid =>
    obtain ⟨rest, e, hx⟩ := hr
    refine h.cl cid l (by rw [e]; simp) fun y hy hne => ?_
    rw [e] at hy
    rcases List.mem_cons.1 hy with rfl | hy
    · exact absurd rfl hne
    · exact h.root _ (hx y hy) (by rw [hlv _ (hx y hy)])
  | _ => exact hr.elim

theorem PStep.trn {k r : Bool} {db s db' s'} (h : PStep db s db' s') (hi : RInv db s) : Tr k r db s db' s' := by
  have hx := (PSteps.one h).allR hi
  have hroot : ∀ l, Root s l → Root s' l := fun l hl => ⟨hx.2.2.tr l hl.1, by rw [hx.2.2.level _ (tr_assigned hl.1)]; exact hl.2⟩
  refine Tr.stk hx.1 hx.2.1 hroot ?_ h.sp ?_ ?_ ?_ ?_
  · cases h with
    | imply l rs hn hr =>
      obtain ⟨f1, f2, -⟩ := assignImpl_fields s l rs s.dl
      intro D hD m hm
      obtain ⟨h1, h2⟩ := hm
      unfold tr at h1; rw [f1] at h1; rw [f2] at h2
      by_cases e : m.var = l.var
      · rw [e, upd_same] at h1 h2
        have : m = l := by cases m; cases l; simp at h1 e; simp [e, h1]
        subst this
        have hl0 : s.lim = [] := by unfold Stk.dl at h2; exact List.length_eq_zero_iff.1 h2
        exact implied_forced hD.1 hr fun m hm => hi.inv.level_root hl0 (tr_assigned hm)
      · rw [upd_of_ne _ _ e] at h1 h2; exact hD.1.root m h1 h2
    | _ => intro D hD l hl; exact hD.1.root l hl.1 hl.2
  · cases h with
    | imply l rs hn hr =>
      obtain ⟨f1, -⟩ := assignImpl_fields s l rs s.dl
      intro hd v hv
      rw [f1] at hv
      by_cases e : v = l.var
      · subst e; obtain ⟨i, hi⟩ := implied_mem hr; exact hd.cl i l hi
      · rw [upd_of_ne _ _ e] at hv; exact hd.as v hv
    | _ => exact fun hd v hv => hd.as v hv
  · intro _ hs
    obtain ⟨t, ht⟩ := hx.2.2.savedSub
    rw [hs] at ht; simp at ht; exact ht.2
  · cases h with
    | imply l rs hn hr =>
      obtain ⟨-, -, -, -, -, -, f7, -⟩ := assignImpl_fields s l rs s.dl
      intro v hv
      rw [f7] at hv
      refine hv.imp (fun h => ?_) .inl
      unfold Stk.assignImpl at h; simp only [] at h; split at h
      · simp only [makeAsserted, List.mem_filter] at h; exact h.1
      · exact h
    | heap v hv =>
      intro w hw
      rcases hw with hw | hw
      · simp only [insertHeap, List.mem_insert_iff] at hw
        rcases hw with rfl | hw
        · exact .inr (.inl hv)
        · exact .inl hw
      · exact .inr (.inl hw)
    | clear =>
      intro w hw
      rcases hw with hw | hw
      · exact (mem_insertHeaps.1 hw).imp id .inl
      · simp [Stk.clearSaved] at hw
    | drop l todo h ht => intro w hw; exact hw.imp id fun hm => .inl (by rw [h]; simp only [List.map_cons, List.mem_cons]; exact .inr hm)
    | _ => intro w hw; exact hw.imp id .inl
  · cases h with
    | imply l rs hn hr =>
      obtain ⟨-, f2, -, -, f5, -⟩ := assignImpl_fields s l rs s.dl
      intro v
      rw [f2]
      by_cases e : v = l.var
      · subst e; right; rw [upd_same]; show s.lim.length ≤ (s.assignImpl l rs s.dl).lim.length; rw [f5]
      · left; rw [upd_of_ne _ _ e]
    | _ => exact fun _ => .inl rfl

theorem PSteps.trn {k r : Bool} {db s db' s'} (h : PSteps db s db' s') (hi : RInv db s) : Tr k r db s db' s' := by
  induction h with
  | refl => exact .refl hi
  | cons h t ih => exact (h.trn hi).trans (ih ((PSteps.one h).allR hi).1)

/-- Backtracking. -/
theorem Tr.cut {k r : Bool} {db : Cdb} {s s' : Stk} (hi : RInv db s) (hi' : Inv db s') {lv j : Nat} (c : Cut s s' lv j) (sp : SP s s')
    (sv : r = true → s.saved = [] → s'.saved = [])
    (hq : ∀ v, v ∈ s'.heap ∨ v ∈ s'.saved.map Lit.var → v ∈ s.heap ∨ v ∈ s.saved.map Lit.var ∨ v ∈ s.trail.map Lit.var) : Tr k r db s db s' := by
  refine Tr.stk ⟨hi.wf, hi'⟩ (.refl _) (fun l hl => ?_) (fun D hD l hl => ?_) sp (fun hd v hv => ?_) sv (fun v hv => ?_) (fun v => .inl (by rw [c.le]))
  · refine ⟨?_, by rw [c.le]; exact hl.2⟩
    unfold tr; rw [Cut.assign_iff hi.inv c, if_pos (by rw [hl.2]; omega)]; exact hl.1
  · exact hD.1.root l (c.tr_old hl.1) (by rw [← c.le]; exact hl.2)
  · exact hd.as v (by rw [← (c.keep hv).2.1]; exact hv)
  · refine (hq v hv).imp id (Or.imp id fun h => ?_)
    obtain ⟨l, hl, rfl⟩ := List.mem_map.1 h
    exact tr_assigned (hi.inv.tv l hl)

theorem Tr.backtrackSandbox {k r : Bool} {db : Cdb} {s : Stk} (hi : RInv db s) : Tr k r db s db s.backtrackSandbox := by
  by_cases hl : s.lim = []
  · have : s.backtrackSandbox = s := by simp [Stk.backtrackSandbox, hl]
    rw [this]; exact .refl hi
  · refine Tr.cut hi hi.inv.backtrackSandbox (backtrackSandbox_cut hl).1 (SP.backtrackSandbox hi.inv) (fun _ h => ?_) fun v hv => ?_
    · simp only [Stk.backtrackSandbox, hl, if_false]; exact h
    · simp only [Stk.backtrackSandbox, hl, if_false] at hv
      rcases hv with hv | hv
      · rcases mem_insertHeaps.1 (show v ∈ (s.insertHeaps _).heap from hv) with h | h
        · exact .inl h
        · exact .inr (.inr ((List.drop_sublist _ _).map Lit.var |>.subset h))
      · exact .inr (.inl hv)

theorem Tr.cancelUntil {k : Bool} {db : Cdb} {s : Stk} (hi : RInv db s) (low : Nat → Bool) (lv : Nat) :
    Tr k false db s db (s.cancelUntil low lv) := by
  by_cases hl : s.dl ≤ lv
  · rw [cancelUntil_noop hl]; exact .refl hi
  · refine Tr.cut hi (hi.inv.cancelUntil low lv) (cancelUntil_cut (by omega)).1 (SP.cancelUntil hi.inv low lv) (by simp) fun v hv => ?_
    have hd : ∀ n, ∀ v ∈ (s.trail.drop n).map Lit.var, v ∈ s.trail.map Lit.var := fun n v h => (List.drop_sublist _ _).map Lit.var |>.subset h
    have e1 : ∀ t : Stk, ∀ vs, v ∈ (t.insertHeaps vs).heap ↔ v ∈ t.heap ∨ v ∈ vs := fun t vs => mem_insertHeaps
    have e2 : v ∈ s.clearSaved.heap ↔ v ∈ s.heap ∨ v ∈ s.saved.map Lit.var := mem_insertHeaps
    have hseg : ∀ a b, ∀ v ∈ ((s.trail.drop a).take b).map Lit.var, v ∈ s.trail.map Lit.var := fun a b v h =>
      hd a v ((List.take_sublist _ _).map Lit.var |>.subset h)
    simp only [Stk.cancelUntil, hl, if_false, unassignFrom, saveTrail] at hv
    split at hv
    · rcases hv with hv | hv
      · rcases (e1 _ _).1 hv with h | h
        · rcases (e1 _ _).1 h with h | h
          · exact (e2.1 h).imp id .inl
          · exact .inr (.inr (hseg _ _ _ (List.mem_filter.1 h).1))
        · exact .inr (.inr (hd _ _ h))
      · exact .inr (.inr (hseg _ _ _ hv))
    · rcases hv with hv | hv
      · rcases (e1 _ _).1 hv with h | h
        · exact (e2.1 h).imp id .inl
        · exact .inr (.inr (hd _ _ h))
      · simp [Stk.insertHeaps, Stk.clearSaved] at hv

theorem Tr.clearSaved {k r : Bool} {db : Cdb} {s : Stk} (hi : RInv db s) : Tr k r db s db s.clearSaved :=
  (PStep.clear).trn hi

theorem Tr.assignDecision {k r : Bool} {db : Cdb} {s : Stk} (hi : RInv db s) {l : Lit} (hn : s.assign l.var = none)
    (hok : Dom db s → Okv s l.var) : Tr k r db s db (s.assignDecision l) := by
  have hne : ∀ m, s.tr m → m.var ≠ l.var := fun m hm e => tr_assigned hm (by rw [e]; exact hn)
  refine Tr.stk ⟨hi.wf, hi.inv.assignDecision hn⟩ (.refl _) (fun m hm => ?_) (fun D hD m hm => ?_) (SP.assignDecision hn) (fun hd v hv => ?_) (fun _ h => h) (fun v hv => hv.imp id .inl)
    (fun v => ?_)
  rotate_right
  · show upd s.level l.var (s.dl + 1) v = _ ∨ upd s.level l.var (s.dl + 1) v ≤ (s.lim ++ [_]).length
    by_cases e : v = l.var
    · subst e; right; rw [upd_same]; simp [Stk.dl]
    · left; rw [upd_of_ne _ _ e]
  · refine ⟨?_, ?_⟩
    · unfold tr; show upd s.assign l.var _ m.var = _; rw [upd_of_ne _ _ (hne m hm.1)]; exact hm.1
    · show upd s.level l.var _ m.var = _; rw [upd_of_ne _ _ (hne m hm.1)]; exact hm.2
  · obtain ⟨h1, h2⟩ := hm
    have h1 : upd s.assign l.var (some l.pos) m.var = some m.pos := h1
    have h2 : upd s.level l.var (s.dl + 1) m.var = 0 := h2
    by_cases e : m.var = l.var
    · rw [e, upd_same] at h2; omega
    · rw [upd_of_ne _ _ e] at h1 h2; exact hD.1.root m h1 h2
  · have hv : upd s.assign l.var (some l.pos) v ≠ none := hv
    by_cases e : v = l.var
    · subst e; exact hok hd
    · rw [upd_of_ne _ _ e] at hv; exact hd.as v hv

end Splr
