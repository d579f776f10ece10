import Verif.Model.QueueSearch
import Verif.Lemmas.QueueSelect
import Verif.Lemmas.Propagate
/-! # Propagation with the array queue and range checks -/
namespace Splr
open Stk QStk PResQ

/-- The indices in the database are in range, for `n` variables. -/
structure Rg (n : Nat) (db : Cdb) : Prop where
  cl : ∀ i, ∀ l ∈ (db.clause i).lits, 1 ≤ l.var ∧ l.var ≤ n
  wt : ∀ p, ∀ e ∈ db.watch p, (1 ≤ e.1 ∧ e.1 < db.len) ∧ 1 ≤ e.2.var ∧ e.2.var ≤ n
  bl : ∀ p, ∀ e ∈ db.blist p, (1 ≤ e.2 ∧ e.2 < db.len) ∧ 1 ≤ e.1.var ∧ e.1.var ≤ n

namespace Rg

theorem restore {n : Nat} {db : Cdb} (h : Rg n db) (p : Lit) (idx : Nat) {op : Option Lit} (ho : ∀ l, op = some l → 1 ≤ l.var ∧ l.var ≤ n) :
    Rg n (db.restoreWatch p idx op) := by
  obtain ⟨e1, e2, -, e4⟩ := Cdb.same_restoreWatch db p idx op
  refine ⟨by rw [e1]; exact h.cl, ?_, by rw [e4, e2]; exact h.bl⟩
  cases op with
  | none => exact h.wt
  | some b =>
    intro q e he
    simp only [Cdb.restoreWatch, upd_apply] at he
    rw [e2]
    split at he
    · rename_i hq
      obtain ⟨i, hi, rfl⟩ := List.mem_iff_getElem.1 he
      rw [List.getElem_modify]
      have hi' : i < (db.watch p).length := by simpa using hi
      have := h.wt p _ (List.getElem_mem hi')
      split
      · exact ⟨this.1, ho b rfl⟩
      · exact this
    · exact h.wt q e he

theorem swap {n : Nat} {db : Cdb} (h : Rg n db) (cid : Nat) : Rg n (db.swapWatch cid) := by
  refine ⟨fun i l hl => ?_, h.wt, h.bl⟩
  simp only [Cdb.swapWatch, Cdb.setC, upd_apply] at hl
  split at hl
  · exact h.cl cid l ((Cdb.swapAt_perm _ _ _).mem_iff.1 hl)
  · exact h.cl i l hl

theorem mem_swapRemove {α} {l : List α} {i : Nat} {a : α} (h : a ∈ swapRemove l i) : a ∈ l := by
  unfold swapRemove at h
  split at h
  · simp at h
  · rename_i y hy
    have h1 := List.dropLast_subset _ h
    rcases List.mem_or_eq_of_mem_set h1 with h2 | h2
    · exact h2
    · subst h2; exact List.mem_of_getLast? hy

theorem move {n : Nat} {db : Cdb} (h : Rg n db) (p : Lit) (idx : Nat) {cid : Nat} (hc : 1 ≤ cid ∧ cid < db.len) (old k sf : Nat) :
    Rg n (db.moveWatch p idx cid old k sf) := by
  unfold Cdb.moveWatch
  simp only []
  split
  · rename_i lk other hk hb
    refine ⟨fun i l hl => ?_, fun q e he => ?_, h.bl⟩
    · simp only [Cdb.setC, Cdb.insW, upd_apply] at hl
      split at hl
      · exact h.cl cid l ((Cdb.swapAt_perm _ _ _).mem_iff.1 hl)
      · exact h.cl i l hl
    · have hq : ∀ q, ∀ e ∈ upd db.watch p (swapRemove (db.watch p) idx) q, (1 ≤ e.1 ∧ e.1 < db.len) ∧ 1 ≤ e.2.var ∧ e.2.var ≤ n := by
        intro q e he
        rw [upd_apply] at he
        split at he
        · rename_i hq; subst hq; exact h.wt _ e (mem_swapRemove he)
        · exact h.wt q e he
      simp only [Cdb.setC, Cdb.insW] at he ⊢
      rw [upd_apply] at he
      split at he
      · simp only [insertWatch, List.mem_append, List.mem_singleton] at he
        rcases he with he | rfl
        · exact hq _ e he
        · exact ⟨hc, h.cl cid other (List.mem_of_getElem? hb)⟩
      · exact hq q e he
  · exact h

end Rg

/-- The results agree. -/
inductive PRel : PRes → PResQ → Prop
  | ok {db : Cdb} {s : Stk} {x : QStk} (h : QRel s x) : PRel (.ok db s) (.ok db x)
  | conflict {db : Cdb} {s : Stk} {x : QStk} {l : Lit} {r : Reason} (h : QRel s x) : PRel (.conflict db s l r) (.conflict db x l r)
  | panic : PRel .panic .panic
  | fuel : PRel .fuel .fuel

theorem okV_of {s : Stk} {x : QStk} (h : QRel s x) {v : Nat} (hv : 1 ≤ v ∧ v ≤ s.numVars) : x.okV v = true := by
  have : x.s.numVars = s.numVars := by rw [← h.same]
  simp [QStk.okV, this, hv]

theorem okC_of {db : Cdb} {i : Nat} (h : 1 ≤ i ∧ i < db.len) : QStk.okC db i = true := by simp [QStk.okC, h]

@[simp] theorem chk_true (r : PResQ) : PResQ.chk true r = r := rfl
@[simp] theorem lift_some (x : QStk) (k : QStk → PResQ) : PResQ.lift (some x) k = k x := rfl

theorem assignImpl_numVars (s : Stk) (l : Lit) (r : Reason) (lv : Nat) : (s.assignImpl l r lv).numVars = s.numVars := by
  unfold assignImpl; simp only []; split <;> rfl

theorem assignImpl_reasonSaved (s : Stk) (l : Lit) (r : Reason) (lv : Nat) : (s.assignImpl l r lv).reasonSaved = s.reasonSaved := by
  unfold assignImpl; simp only []; split <;> rfl

theorem saved_set {s : Stk} {x : QStk} (h : QRel s x) {sv : List Lit} (hs : ∀ l ∈ sv, 1 ≤ l.var ∧ l.var ≤ s.numVars) :
    QRel { s with saved := sv } { x with s := { x.s with saved := sv } } := by
  obtain ⟨hp, e⟩ := h.of
  exact h.other (by rw [e]) rfl h.dom.tr hs

theorem reuseLoop_sim {db : Cdb} {q : Nat} : ∀ (todo : List Lit) {s : Stk} {x : QStk}, QRel s x → (∀ l ∈ todo, 1 ≤ l.var ∧ l.var ≤ s.numVars) →
    (∀ l ∈ todo, ∀ cid, s.reasonSaved l.var = .impl cid → 1 ≤ cid ∧ cid < db.len) → PRel (reuseLoop db q todo s) (reuseLoopQ db q todo x)
  | [], s, x, h, _, _ => .ok (saved_set h (by simp))
  | l :: todo, s, x, h, ht, hr => by
    have hl := ht l (by simp)
    have e1 : x.s.val l = s.val l := by rw [← h.same]; rfl
    have e2 : x.s.reasonSaved = s.reasonSaved := by rw [← h.same]
    have e3 : x.s.dl = s.dl := by rw [← h.same]; rfl
    have step : ∀ r : Reason, PRel (reuseLoop db q todo (s.assignImpl l r s.dl)) (lift (x.assignImplQ l r s.dl) (reuseLoopQ db q todo)) := by
      intro r
      obtain ⟨y, ey, hy⟩ := h.assignImpl hl r s.dl
      rw [ey, lift_some]
      refine reuseLoop_sim todo hy ?_ ?_
      · rw [assignImpl_numVars]; exact fun l hl => ht l (by simp [hl])
      · rw [assignImpl_reasonSaved]; exact fun l hl => hr l (by simp [hl])
    have ins : PRel (.ok db { s.insertHeap l.var with saved := l :: todo })
        (lift (x.insertQ l.var) fun y => .ok db { y with s := { y.s with saved := l :: todo } }) := by
      obtain ⟨y, ey, hy, -⟩ := h.insert hl
      rw [ey, lift_some]
      exact .ok (saved_set hy ht)
    have clr : ∀ (m : Lit) (r : Reason), PRel (.conflict db ({ s with saved := l :: todo }).clearSaved m r)
        (lift (clearSavedQ { x with s := { x.s with saved := l :: todo } }) fun y => .conflict db y m r) := by
      intro m r
      obtain ⟨y, ey, hy, -⟩ := (saved_set h ht).clearSaved
      rw [ey, lift_some]
      exact .conflict hy
    unfold reuseLoop reuseLoopQ
    rw [okV_of h hl, chk_true, e1, e2, e3]
    cases hv : s.val l with
    | none =>
      cases hrs : s.reasonSaved l.var with
      | none => exact .panic
      | decision k => exact ins
      | binary m => exact step _
      | impl cid =>
        simp only []
        rw [okC_of (hr l (by simp) cid hrs), chk_true]
        split
        · exact ins
        · exact step _
    | some b =>
      cases b with
      | true => exact reuseLoop_sim todo h (fun l hl => ht l (by simp [hl])) (fun l hl => hr l (by simp [hl]))
      | false =>
        cases hrs : s.reasonSaved l.var with
        | none => exact .panic
        | decision k => exact ins
        | binary m => exact clr _ _
        | impl cid =>
          simp only []
          rw [okC_of (hr l (by simp) cid hrs), chk_true]
          cases hc : (db.clause cid).lits with
          | nil => exact .panic
          | cons l0 tl => exact clr _ _

theorem reuse_sim {db : Cdb} {q : Nat} {s : Stk} {x : QStk} (h : QRel s x)
    (hr : ∀ l ∈ s.saved, ∀ cid, s.reasonSaved l.var = .impl cid → 1 ≤ cid ∧ cid < db.len) : PRel (reuse db q s) (reuseQ db q x) := by
  have : x.s.saved = s.saved := by rw [← h.same]
  unfold reuse reuseQ
  rw [this]
  exact reuseLoop_sim s.saved h h.dom.sv hr

/-- The result agrees, and the indices stay in range. -/
def PRg (n : Nat) (r : PRes) : Prop :=
  match r with
  | .ok db s => Rg n db ∧ s.numVars = n
  | .conflict db s _ _ => Rg n db ∧ s.numVars = n
  | _ => True

theorem binLoop_sim {p : Lit} {db : Cdb} : ∀ (bs : List (Lit × Nat)) {s : Stk} {x : QStk}, QRel s x → Rg s.numVars db →
    (∀ e ∈ bs, 1 ≤ e.1.var ∧ e.1.var ≤ s.numVars) → PRel (binLoop p db bs s) (binLoopQ p db bs x) ∧ PRg s.numVars (binLoop p db bs s)
  | [], s, x, h, hg, _ => ⟨.ok h, hg, rfl⟩
  | (b, i) :: bs, s, x, h, hg, hb => by
    have hl := hb (b, i) (by simp)
    have e1 : x.s.val b = s.val b := by rw [← h.same]; rfl
    have e3 : x.s.dl = s.dl := by rw [← h.same]; rfl
    unfold binLoop binLoopQ
    rw [okV_of h hl, chk_true, e1, e3]
    cases hv : s.val b with
    | none =>
      obtain ⟨y, ey, hy⟩ := h.assignImpl hl (.binary p) s.dl
      simp only []
      rw [ey, lift_some]
      have hn := assignImpl_numVars s b (.binary p) s.dl
      have := binLoop_sim (p := p) (db := db) bs hy (by rw [hn]; exact hg) (by rw [hn]; exact fun e he => hb e (by simp [he]))
      rw [hn] at this
      exact this
    | some c =>
      cases c with
      | true => exact binLoop_sim bs h hg (fun e he => hb e (by simp [he]))
      | false => exact ⟨.conflict h, hg, rfl⟩

theorem scan_sim {s : Stk} {x : QStk} (h : QRel s x) {lits : Cls} (hl : ∀ l ∈ lits, 1 ≤ l.var ∧ l.var ≤ s.numVars) : ∀ (ks : List Nat),
    (∀ k ∈ ks, k < lits.length) → scanQ x lits ks = some (ks.find? (fun k => (lits[k]?.bind s.val) != some false))
  | [], _ => rfl
  | k :: ks, hk => by
    have hk0 := hk k (by simp)
    have ek : lits[k]? = some lits[k] := List.getElem?_eq_getElem hk0
    unfold scanQ
    rw [ek]
    simp only []
    rw [okV_of h (hl _ (List.getElem_mem hk0)), if_pos rfl, List.find?_cons, ek, Option.bind_some]
    have e1 : x.s.val lits[k] = s.val lits[k] := by rw [← h.same]; rfl
    rw [e1]
    cases hb : (s.val lits[k] != some false) with
    | true => simp
    | false =>
      simp only [Bool.false_eq_true, if_false]
      exact scan_sim h hl ks (fun j hj => hk j (by simp [hj]))

theorem watchLoop_sim {sandbox : Bool} {p : Lit} : ∀ (n idx : Nat) {db : Cdb} {s : Stk} {x : QStk}, QRel s x → Rg s.numVars db →
    PRel (watchLoop sandbox p n idx db s) (watchLoopQ sandbox p n idx db x) ∧ PRg s.numVars (watchLoop sandbox p n idx db s)
  | 0, idx, db, s, x, h, hg => ⟨.ok h, hg, rfl⟩
  | n + 1, idx, db, s, x, h, hg => by
    have ev : ∀ l, x.s.val l = s.val l := fun l => by rw [← h.same]; rfl
    have e3 : x.s.dl = s.dl := by rw [← h.same]; rfl
    unfold watchLoop watchLoopQ
    cases hw : (db.watch p)[idx]? with
    | none => exact ⟨.panic, trivial⟩
    | some e =>
      obtain ⟨cid, cached⟩ := e
      obtain ⟨hc, hca⟩ := hg.wt p _ (List.mem_of_getElem? hw)
      simp only []
      rw [okC_of hc, okV_of h hca, Bool.and_self, chk_true]
      by_cases hd : (sandbox && (db.clause cid).dead) = true
      · rw [if_pos hd, if_pos hd]; exact watchLoop_sim n (idx + 1) h hg
      rw [if_neg hd, if_neg hd, ev]
      by_cases hct : s.val cached = some true
      · rw [if_pos hct, if_pos hct]; exact watchLoop_sim n (idx + 1) h hg
      rw [if_neg hct, if_neg hct]
      have hcl := hg.cl cid
      rcases hlits : (db.clause cid).lits with _ | ⟨l0, _ | ⟨l1, tl⟩⟩
      · exact ⟨.panic, trivial⟩
      · exact ⟨.panic, trivial⟩
      rw [hlits] at hcl
      simp only []
      generalize hpos : (if p.neg = l1 then 1 else 0) = pos
      generalize hoth : (if p.neg = l1 then l0 else l1) = other
      have hother : 1 ≤ other.var ∧ other.var ≤ s.numVars := by
        rw [← hoth]; split
        · exact hcl l0 (by simp)
        · exact hcl l1 (by simp)
      rw [okV_of h hother, chk_true, ev]
      by_cases ho : cached ≠ other ∧ s.val other = some true
      · rw [if_pos ho, if_pos ho]
        exact watchLoop_sim n (idx + 1) h (hg.restore p idx (fun l e => by cases e; exact hother))
      rw [if_neg ho, if_neg ho]
      cases hord : Scan.order (l0 :: l1 :: tl).length (db.clause cid).searchFrom with
      | none => exact ⟨.panic, trivial⟩
      | some ks =>
        simp only []
        rw [scan_sim h hcl ks (fun k hk => (order_mem hord hk).2)]
        cases hf : ks.find? (fun k => ((l0 :: l1 :: tl)[k]?.bind s.val) != some false) with
        | some k =>
          simp only []
          split
          · exact ⟨.panic, trivial⟩
          · exact watchLoop_sim n idx h (hg.move p idx hc pos k _)
        | none =>
          simp only []
          have hg1 : Rg s.numVars ((if pos = 0 then db.swapWatch cid else db).restoreWatch p idx (if cached ≠ other then some other else none)) := by
            refine Rg.restore ?_ p idx (fun l e => ?_)
            · split
              · exact hg.swap cid
              · exact hg
            · split at e
              · cases e; exact hother
              · cases e
          by_cases hof : s.val other = some false
          · rw [if_pos hof, if_pos hof]; exact ⟨.conflict h, hg1, rfl⟩
          · rw [if_neg hof, if_neg hof, e3]
            obtain ⟨y, ey, hy⟩ := h.assignImpl hother (.impl cid) s.dl
            rw [ey, lift_some]
            have hn := assignImpl_numVars s other (.impl cid) s.dl
            have := watchLoop_sim (sandbox := sandbox) (p := p) n (idx + 1) hy (by rw [hn]; exact hg1)
            rw [hn] at this
            exact this

theorem propLit_sim {sandbox : Bool} {p : Lit} {db : Cdb} {s : Stk} {x : QStk} (h : QRel s x) (hg : Rg s.numVars db)
    (hp : 1 ≤ p.var ∧ p.var ≤ s.numVars) : PRel (propLit sandbox p db s) (propLitQ sandbox p db x) ∧ PRg s.numVars (propLit sandbox p db s) := by
  obtain ⟨h1, h2⟩ := binLoop_sim (p := p) (db := db) (db.blist p.neg) h hg (fun e he => (hg.bl _ e he).2)
  unfold propLit propLitQ
  rw [okV_of h hp, chk_true]
  revert h1 h2
  generalize binLoop p db (db.blist p.neg) s = r
  generalize binLoopQ p db (db.blist p.neg) x = r'
  intro h1 h2
  cases h1 with
  | @ok db1 s1 x1 h1 =>
    obtain ⟨h2, h3⟩ := h2
    have := watchLoop_sim (sandbox := sandbox) (p := p) (db1.watch p).length 0 h1 (h3 ▸ h2)
    rw [h3] at this
    exact this
  | conflict h1 => exact ⟨.conflict h1, h2⟩
  | panic => exact ⟨.panic, trivial⟩
  | fuel => exact ⟨.fuel, trivial⟩

theorem qhead_set {s : Stk} {x : QStk} (h : QRel s x) (k : Nat) : QRel { s with qhead := k } { x with s := { x.s with qhead := k } } := by
  obtain ⟨hp, e⟩ := h.of
  exact h.other (by rw [e]) rfl h.dom.tr h.dom.sv

theorem propLoopSandbox_sim : ∀ (n : Nat) {db : Cdb} {s : Stk} {x : QStk}, QRel s x → Rg s.numVars db →
    PRel (propLoopSandbox n db s) (propLoopSandboxQ n db x) ∧ PRg s.numVars (propLoopSandbox n db s)
  | 0, db, s, x, _, _ => ⟨.fuel, trivial⟩
  | n + 1, db, s, x, h, hg => by
    have e1 : x.s.trail = s.trail := by rw [← h.same]
    have e2 : x.s.qhead = s.qhead := by rw [← h.same]
    unfold propLoopSandbox propLoopSandboxQ
    rw [e1, e2]
    cases ht : s.trail[s.qhead]? with
    | none => exact ⟨.ok h, hg, rfl⟩
    | some p =>
      simp only []
      obtain ⟨h1, h2⟩ := propLit_sim (sandbox := true) (p := p) (db := db) (qhead_set h (s.qhead + 1)) hg (h.dom.tr p (List.mem_of_getElem? ht))
      revert h1 h2
      generalize propLit true p db _ = r
      generalize propLitQ true p db _ = r'
      intro h1 h2
      cases h1 with
      | ok h1 =>
        obtain ⟨h2, h3⟩ := h2
        simp only [] at h3 h2
        have := propLoopSandbox_sim n h1 (h3 ▸ h2)
        rw [h3] at this
        exact this
      | conflict h1 => exact ⟨.conflict h1, h2⟩
      | panic => exact ⟨.panic, trivial⟩
      | fuel => exact ⟨.fuel, trivial⟩

theorem propagateSandbox_sim {db : Cdb} {s : Stk} {x : QStk} (h : QRel s x) (hg : Rg s.numVars db) :
    PRel (propagateSandbox db s) (propagateSandboxQ db x) ∧ PRg s.numVars (propagateSandbox db s) := by
  have : x.s.propFuel = s.propFuel := by rw [← h.same]; rfl
  unfold propagateSandbox propagateSandboxQ
  rw [this]
  exact propLoopSandbox_sim _ h hg

end Splr
