import Verif.Lemmas.QueueProp
import Verif.Lemmas.Learn
/-! # Conflicts with the array queue and range checks -/
namespace Splr
open Stk QStk

/-- What conflict analysis needs of a state. -/
structure Gs (db : Cdb) (s : Stk) : Prop where
  as : ∀ v, s.assign v ≠ none → 1 ≤ v ∧ v ≤ s.numVars
  lv : ∀ v, s.assign v ≠ none → s.level v ≤ s.dl
  ant : ∀ v, s.assign v ≠ none → ∀ q ∈ antecedents db (s.reason v), s.assign q.var ≠ none
  rs : ∀ v cid, s.reason v = .impl cid → (1 ≤ cid ∧ cid < db.len) ∧ 1 ≤ (db.clause cid).lits.length
  bn : ∀ v m, s.reason v = .binary m → 1 ≤ m.var ∧ m.var ≤ s.numVars
  rn : ∀ v, s.assign v ≠ none → s.reason v ≠ .none
  rg : Rg s.numVars db
  bl : ∀ p, ∀ e ∈ db.blist p, 2 ≤ (db.clause e.2).lits.length
  lw : ∀ v, s.level v ≤ s.numVars
  tr : ∀ l ∈ s.trail, s.assign l.var ≠ none

namespace Gs

variable {db : Cdb} {s : Stk} {x : QStk}

theorem okV (g : Gs db s) (h : QRel s x) {v : Nat} (hv : s.assign v ≠ none) : x.okV v = true := okV_of h (g.as v hv)

theorem add (g : Gs db s) (h : QRel s x) {q : Lit} (hq : s.assign q.var ≠ none) (d : Nat) (sk : Bool) (a : Ana) :
    x.addC d sk a q = some (a.add s d sk q) := by
  unfold QStk.addC
  rw [if_pos (g.okV h hq)]
  obtain ⟨hp, e⟩ := h.of
  rw [e]; rfl

theorem adds (g : Gs db s) (h : QRel s x) (d : Nat) : ∀ {qs : Cls} {a : Ana}, (∀ q ∈ qs, s.assign q.var ≠ none) →
    x.addsC d qs a = some (qs.foldl (Ana.add s d true) a)
  | [], a, _ => rfl
  | q :: qs, a, hq => by
    unfold QStk.addsC
    rw [g.add h (hq q (by simp)), Option.bind_some, g.adds h d (fun q hq' => hq q (by simp [hq'])), List.foldl_cons]

theorem expand (g : Gs db s) (h : QRel s x) (d : Nat) (a : Ana) {r : Reason} (hr : ∀ q ∈ antecedents db r, s.assign q.var ≠ none)
    (hc : ∀ cid, r = .impl cid → 1 ≤ cid ∧ cid < db.len) : expandC db x d a r = some (a.expand db s d r) := by
  cases r with
  | none => rfl
  | decision k => rfl
  | binary l => exact g.add h (q := l.neg) (hr l (by simp [antecedents])) d false a
  | impl cid =>
    unfold expandC Ana.expand
    simp only []
    rw [if_pos (okC_of (hc cid rfl))]
    exact g.adds h d hr

theorem loop (g : Gs db s) (h : QRel s x) (d : Nat) : ∀ {ts : List Lit} {a : Ana}, (∀ t ∈ ts, s.assign t.var ≠ none) →
    loopC db x d ts a = Ana.loop db s d ts a
  | [], a, _ => rfl
  | t :: ts, a, ht => by
    have ht0 := ht t (by simp)
    have hts : ∀ t ∈ ts, s.assign t.var ≠ none := fun u hu => ht u (by simp [hu])
    have e1 : x.s.level = s.level := by rw [← h.same]
    have e2 : x.s.reason = s.reason := by rw [← h.same]
    unfold loopC Ana.loop
    rw [if_pos (g.okV h ht0), e1, e2]
    split
    · simp only []
      split
      · rfl
      · rw [g.expand h d _ (g.ant _ ht0) (fun cid hc => (g.rs _ cid hc).1), Option.bind_some]
        exact g.loop h d hts
    · exact g.loop h d hts

/-- What holds of the stack in `is_redundant`. -/
def RI (s : Stk) (a : Red) : Prop := (∀ q ∈ a.stack, s.assign q.var ≠ none ∧ (s.reason q.var).implied = true) ∧ ∀ q ∈ a.clear, s.assign q.var ≠ none

theorem redLits (g : Gs db s) (h : QRel s x) (levels : Nat → Bool) : ∀ {qs : Cls} {a : Red}, (∀ q ∈ qs, s.assign q.var ≠ none) → RI s a →
    redLitsC x levels qs a = some (redLits s levels qs a) ∧ ∀ a', Splr.redLits s levels qs a = some a' → RI s a'
  | [], a, _, hi => ⟨rfl, fun a' e => by cases e; exact hi⟩
  | q :: qs, a, hq, hi => by
    have hq0 := hq q (by simp)
    have hqs : ∀ q ∈ qs, s.assign q.var ≠ none := fun u hu => hq u (by simp [hu])
    have e1 : x.s.level = s.level := by rw [← h.same]
    have e2 : x.s.reason = s.reason := by rw [← h.same]
    have e3 : x.s.dl = s.dl := by rw [← h.same]; rfl
    unfold redLitsC Splr.redLits
    rw [if_pos (g.okV h hq0), e1, e2, e3]
    by_cases hc : 0 < s.level q.var ∧ a.seen q.var = false
    · rw [if_pos hc, if_pos hc, if_pos (g.lv _ hq0)]
      cases hm : (s.reason q.var).implied with
      | false => simp
      | true =>
        cases hl : levels (s.level q.var) with
        | false => simp
        | true =>
          simp only [if_true, Bool.and_self]
          exact g.redLits h levels hqs ⟨fun u hu => by
            rcases List.mem_cons.1 hu with rfl | hu
            · exact ⟨hq0, hm⟩
            · exact hi.1 u hu, fun u hu => by
            rcases List.mem_append.1 hu with hu | hu
            · exact hi.2 u hu
            · simp only [List.mem_singleton] at hu; subst hu; exact hq0⟩
    · rw [if_neg hc, if_neg hc]
      exact g.redLits h levels hqs hi

theorem redLoop (g : Gs db s) (h : QRel s x) (levels : Nat → Bool) : ∀ {n : Nat} {a : Red}, RI s a →
    redLoopC db x levels n a = some (redLoop db s levels n a) ∧ ∀ a', Splr.redLoop db s levels n a = .yes a' → RI s a'
  | 0, a, hi => by
    refine ⟨rfl, fun a' e => ?_⟩
    unfold Splr.redLoop at e
    split at e
    · cases e; exact hi
    · cases e
  | n + 1, a, hi => by
    have e2 : x.s.reason = s.reason := by rw [← h.same]
    unfold redLoopC Splr.redLoop
    cases hs : a.stack with
    | nil => exact ⟨rfl, fun a' e => by cases e; exact hi⟩
    | cons sl st =>
      obtain ⟨h1, h2⟩ := hi.1 sl (by rw [hs]; simp)
      have hrc : reasonC db (s.reason sl.var) = true := by
        unfold reasonC
        cases hr : s.reason sl.var with
        | none => rw [hr] at h2; cases h2
        | decision k => rw [hr] at h2; cases h2
        | binary m => rfl
        | impl cid => obtain ⟨k1, k2⟩ := g.rs _ cid hr; simp [okC_of k1]; exact k2
      simp only []
      rw [e2, g.okV h h1, hrc, Bool.and_self, if_pos rfl]
      obtain ⟨k1, k2⟩ := g.redLits h levels (a := { a with stack := st }) (g.ant _ h1) ⟨fun u hu => hi.1 u (by rw [hs]; simp [hu]), hi.2⟩
      rw [k1]
      cases hr : Splr.redLits s levels (antecedents db (s.reason sl.var)) { a with stack := st } with
      | none => exact ⟨rfl, fun a' e => by cases e⟩
      | some a1 => exact g.redLoop h levels (k2 a1 hr)

theorem isRedundant (g : Gs db s) (h : QRel s x) (levels seen : Nat → Bool) {clear : Cls} (hcl : ∀ q ∈ clear, s.assign q.var ≠ none) {l : Lit}
    (hl : s.assign l.var ≠ none) : isRedundantC db x levels seen clear l = isRedundant db s levels seen clear l ∧
      ∀ r seen' clear', Splr.isRedundant db s levels seen clear l = some (r, seen', clear') → ∀ q ∈ clear', s.assign q.var ≠ none := by
  have e2 : x.s.reason = s.reason := by rw [← h.same]
  have e3 : x.s.trail = s.trail := by rw [← h.same]
  unfold isRedundantC Splr.isRedundant
  rw [if_pos (g.okV h hl), e2, e3]
  have key : (s.reason l.var).implied = true → _ := fun hm => g.redLoop h levels (n := s.trail.length + 1) (a := { stack := [l], seen := seen, clear := clear })
    ⟨fun q hq => by simp only [List.mem_singleton] at hq; subst hq; exact ⟨hl, hm⟩, hcl⟩
  cases hr : s.reason l.var with
  | none => exact ⟨rfl, fun _ _ _ e => by cases e⟩
  | decision k => exact ⟨rfl, fun _ _ _ e => by cases e; exact hcl⟩
  | binary m =>
    rw [hr] at key
    obtain ⟨k1, k2⟩ := key rfl
    simp only []
    rw [k1]
    cases hk : Splr.redLoop db s levels (s.trail.length + 1) { stack := [l], seen := seen, clear := clear } with
    | yes a => exact ⟨rfl, fun _ _ _ e => by cases e; exact (k2 a hk).2⟩
    | no => exact ⟨rfl, fun _ _ _ e => by cases e; exact hcl⟩
    | fuel => exact ⟨rfl, fun _ _ _ e => by cases e⟩
  | impl cid =>
    rw [hr] at key
    obtain ⟨k1, k2⟩ := key rfl
    simp only []
    rw [k1]
    cases hk : Splr.redLoop db s levels (s.trail.length + 1) { stack := [l], seen := seen, clear := clear } with
    | yes a => exact ⟨rfl, fun _ _ _ e => by cases e; exact (k2 a hk).2⟩
    | no => exact ⟨rfl, fun _ _ _ e => by cases e; exact hcl⟩
    | fuel => exact ⟨rfl, fun _ _ _ e => by cases e⟩

theorem retainLoop (g : Gs db s) (h : QRel s x) (levels : Nat → Bool) : ∀ {ls : Cls} {seen : Nat → Bool} {clear : Cls},
    (∀ q ∈ ls, s.assign q.var ≠ none) → (∀ q ∈ clear, s.assign q.var ≠ none) →
    retainLoopC db x levels ls seen clear = retainLoop db s levels ls seen clear ∧
      ∀ kept seen' clear', Splr.retainLoop db s levels ls seen clear = some (kept, seen', clear') →
        (∀ q ∈ kept, s.assign q.var ≠ none) ∧ ∀ q ∈ clear', s.assign q.var ≠ none
  | [], seen, clear, _, hcl => ⟨rfl, fun _ _ _ e => by cases e; exact ⟨by simp, hcl⟩⟩
  | l :: ls, seen, clear, hl, hcl => by
    obtain ⟨k1, k2⟩ := g.isRedundant h levels seen hcl (hl l (by simp))
    unfold retainLoopC Splr.retainLoop
    rw [k1]
    cases hk : Splr.isRedundant db s levels seen clear l with
    | none => exact ⟨rfl, fun _ _ _ e => by cases e⟩
    | some y =>
      obtain ⟨r, seen1, clear1⟩ := y
      obtain ⟨m1, m2⟩ := g.retainLoop h levels (ls := ls) (seen := seen1) (fun q hq => hl q (by simp [hq])) (k2 r seen1 clear1 hk)
      simp only []
      rw [m1]
      cases hm : Splr.retainLoop db s levels ls seen1 clear1 with
      | none => exact ⟨rfl, fun _ _ _ e => by cases e⟩
      | some z =>
        obtain ⟨kept, seen2, clear2⟩ := z
        refine ⟨rfl, fun _ _ _ e => ?_⟩
        cases e
        obtain ⟨n1, n2⟩ := m2 kept seen2 clear2 hm
        refine ⟨?_, n2⟩
        split
        · exact n1
        · intro q hq
          rcases List.mem_cons.1 hq with rfl | hq
          · exact hl q (by simp)
          · exact n1 q hq

theorem biMinimize_sub (s : Stk) : ∀ (v : Cls), ∀ l ∈ biMinimize db s v, l ∈ v
  | [], l, hl => hl
  | l0 :: rest, l, hl => by
    unfold biMinimize at hl
    simp only [] at hl
    split at hl
    · exact hl
    · exact (List.mem_filter.1 hl).1

theorem biMinimize_eq (g : Gs db s) (h : QRel s x) {v : Cls} (hv : ∀ q ∈ v, s.assign q.var ≠ none) : biMinimizeC db x v = some (biMinimize db s v) := by
  unfold biMinimizeC
  rw [if_pos]
  · obtain ⟨hp, e⟩ := h.of
    rw [e]
    cases v <;> rfl
  · rw [Bool.and_eq_true]
    refine ⟨List.all_eq_true.2 fun l hl => g.okV h (hv l hl), List.all_eq_true.2 fun l hl => List.all_eq_true.2 fun e he => ?_⟩
    rw [Bool.and_eq_true, Bool.and_eq_true]
    exact ⟨⟨okC_of (g.rg.bl _ e he).1, by simpa using g.bl _ e he⟩, List.all_eq_true.2 fun m hm => okV_of h (g.rg.cl _ m hm)⟩

theorem minimize (g : Gs db s) (h : QRel s x) {l0 : Lit} {rest : Cls} (hl : s.assign l0.var ≠ none) (hr : ∀ q ∈ rest, s.assign q.var ≠ none)
    (seen : Nat → Bool) : minimizeLearntC db x l0 rest seen = minimizeLearnt db s l0 rest seen ∧
      ∀ v lv f, minimizeLearnt db s l0 rest seen = some (v, lv, f) → ∀ q ∈ v, s.assign q.var ≠ none := by
  have e1 : x.s.level = s.level := by rw [← h.same]
  have e3 : x.s.dl = s.dl := by rw [← h.same]; rfl
  have ep : ∀ v, placeSecond x.s v = placeSecond s v := by
    intro v
    have hm : ∀ (ls : Cls) (i best lv : Nat), maxLevelAt x.s ls i best lv = maxLevelAt s ls i best lv := by
      intro ls
      induction ls with
      | nil => exact fun _ _ _ => rfl
      | cons l ls ih => intro i best lv; unfold maxLevelAt; rw [e1, ih, ih]
    unfold placeSecond
    split
    · simp only []; rw [hm, e1]
    · rfl
  have pm : ∀ v, ∀ q ∈ (placeSecond s v).1, q ∈ v := by
    intro v q hq
    unfold placeSecond at hq
    split at hq
    · simp only [] at hq; exact (Cdb.swapAt_perm _ _ _).mem_iff.1 hq
    · exact hq
  unfold minimizeLearntC minimizeLearnt
  rw [if_pos (List.all_eq_true.2 fun l hl => by rw [Bool.and_eq_true]; exact ⟨g.okV h (hr l hl), by rw [e1, e3]; simpa using g.lv _ (hr l hl)⟩), e1]
  simp only []
  obtain ⟨k1, k2⟩ := g.retainLoop h (fun lv => (rest.map fun l => s.level l.var).contains lv) (ls := rest) (seen := seen) (clear := l0 :: rest) hr
    (fun q hq => by
      rcases List.mem_cons.1 hq with rfl | hq
      · exact hl
      · exact hr q hq)
  rw [k1]
  cases hk : Splr.retainLoop db s (fun lv => (rest.map fun l => s.level l.var).contains lv) rest seen (l0 :: rest) with
  | none => exact ⟨rfl, fun _ _ _ e => by cases e⟩
  | some y =>
    obtain ⟨kept, seen1, clear⟩ := y
    obtain ⟨n1, n2⟩ := k2 _ _ _ hk
    have hv : ∀ q ∈ l0 :: kept, s.assign q.var ≠ none := by
      intro q hq
      rcases List.mem_cons.1 hq with rfl | hq
      · exact hl
      · exact n1 q hq
    have hv2 : ∀ q ∈ (if 2 < (l0 :: kept).length then biMinimize db s (l0 :: kept) else l0 :: kept), s.assign q.var ≠ none := by
      intro q hq
      split at hq
      · exact hv q (biMinimize_sub s _ q hq)
      · exact hv q hq
    have eb : (if 2 < (l0 :: kept).length then biMinimizeC db x (l0 :: kept) else some (l0 :: kept)) =
        some (if 2 < (l0 :: kept).length then biMinimize db s (l0 :: kept) else l0 :: kept) := by
      rw [g.biMinimize_eq h hv]; split <;> rfl
    simp only []
    rw [eb]
    simp only []
    rw [if_pos (by
      rw [Bool.and_eq_true]
      exact ⟨List.all_eq_true.2 fun l hl => g.okV h (hv2 l hl), List.all_eq_true.2 fun l hl => g.okV h (n2 l hl)⟩), ep]
    refine ⟨rfl, fun v lv f e => ?_⟩
    simp only [Option.some.injEq, Prod.mk.injEq] at e
    intro q hq
    rw [← e.1] at hq
    exact hv2 q (pm _ q hq)

theorem rest_add {d : Nat} {sk : Bool} {a : Ana} (ha : ∀ q ∈ a.rest, s.assign q.var ≠ none) {q : Lit} (hq : s.assign q.var ≠ none) :
    ∀ u ∈ (a.add s d sk q).rest, s.assign u.var ≠ none := by
  unfold Ana.add
  split
  · exact ha
  split
  · exact ha
  split
  · exact ha
  · intro u hu
    rcases List.mem_append.1 hu with hu | hu
    · exact ha u hu
    · simp only [List.mem_singleton] at hu; subst hu; exact hq

theorem rest_adds {d : Nat} : ∀ {qs : Cls} {a : Ana}, (∀ q ∈ a.rest, s.assign q.var ≠ none) → (∀ q ∈ qs, s.assign q.var ≠ none) →
    ∀ u ∈ (qs.foldl (Ana.add s d true) a).rest, s.assign u.var ≠ none
  | [], a, ha, _ => ha
  | q :: qs, a, ha, hq => by
    rw [List.foldl_cons]
    exact rest_adds (rest_add ha (hq q (by simp))) (fun u hu => hq u (by simp [hu]))

theorem rest_expand {d : Nat} {a : Ana} (ha : ∀ q ∈ a.rest, s.assign q.var ≠ none) {r : Reason} (hr : ∀ q ∈ antecedents db r, s.assign q.var ≠ none) :
    ∀ u ∈ (a.expand db s d r).rest, s.assign u.var ≠ none := by
  cases r with
  | none => exact ha
  | decision k => exact ha
  | binary l => exact rest_add ha (q := l.neg) (hr l (by simp [antecedents]))
  | impl cid => exact rest_adds ha hr

theorem rest_loop (g : Gs db s) {d : Nat} : ∀ {ts : List Lit} {a a' : Ana} {p : Lit}, (∀ t ∈ ts, s.assign t.var ≠ none) →
    (∀ q ∈ a.rest, s.assign q.var ≠ none) → Ana.loop db s d ts a = some (p, a') → s.assign p.var ≠ none ∧ ∀ q ∈ a'.rest, s.assign q.var ≠ none
  | [], a, a', p, _, _, e => by cases e
  | t :: ts, a, a', p, ht, ha, e => by
    have hts : ∀ t ∈ ts, s.assign t.var ≠ none := fun u hu => ht u (by simp [hu])
    unfold Ana.loop at e
    split at e
    · simp only [] at e
      split at e
      · cases e; exact ⟨ht _ (by simp), ha⟩
      · exact g.rest_loop hts (rest_expand (by exact ha) (g.ant _ (ht t (by simp)))) e
    · exact g.rest_loop hts ha e

theorem analyze (g : Gs db s) (h : QRel s x) {l : Lit} {r : Reason} (hl : s.assign l.var ≠ none) (hr : ∀ q ∈ antecedents db r, s.assign q.var ≠ none)
    (hc : ∀ cid, r = .impl cid → 1 ≤ cid ∧ cid < db.len) : conflictAnalyzeC db x l r = conflictAnalyze db s l r ∧
      ∀ v lv f, conflictAnalyze db s l r = some (v, lv, f) → ∀ q ∈ v, s.assign q.var ≠ none := by
  have e1 : x.s.dl = s.dl := by rw [← h.same]; rfl
  have e2 : x.s.trail = s.trail := by rw [← h.same]
  have ht : ∀ t ∈ s.trail.reverse, s.assign t.var ≠ none := fun t ht => g.tr t (List.mem_reverse.1 ht)
  unfold conflictAnalyzeC conflictAnalyze
  rw [e1, e2, g.add h hl, Option.bind_some, g.expand h _ _ hr hc, Option.bind_some, g.loop h _ ht]
  simp only []
  cases hk : Ana.loop db s s.dl s.trail.reverse ((Ana.add s s.dl false { seen := fun _ => false, rest := [], cnt := 0 } l).expand db s s.dl r) with
  | none => exact ⟨rfl, fun _ _ _ e => by cases e⟩
  | some y =>
    obtain ⟨p, a⟩ := y
    obtain ⟨k1, k2⟩ := g.rest_loop ht (rest_expand (rest_add (by simp) hl) hr) hk
    exact g.minimize h (l0 := p.neg) k1 k2 a.seen

end Gs

/-- The results agree. -/
inductive HRel : HRes → HResQ → Prop
  | ok {db : Cdb} {s : Stk} {x : QStk} (h : QRel s x) : HRel (.ok db s) (.ok db x)
  | unsat {db : Cdb} {s : Stk} {x : QStk} (h : QRel s x) : HRel (.unsat db s) (.unsat db x)
  | panic : HRel .panic .panic

theorem learnUnit_sim {db : Cdb} {s : Stk} {x : QStk} (h : QRel s x) (low : Nat → Bool) {l0 : Lit} (hl : 1 ≤ l0.var ∧ l0.var ≤ s.numVars) :
    HRel (learnUnit db s low l0) (learnUnitQ db x low l0) := by
  have e1 : x.s.val l0 = s.val l0 := by rw [← h.same]; rfl
  have e2 : x.s.level = s.level := by rw [← h.same]
  unfold learnUnit learnUnitQ
  rw [if_pos (okV_of h hl), e1, e2]
  split
  · exact .panic
  split
  · exact .unsat h
  obtain ⟨y, ey, hy⟩ := h.assignRoot low hl
  rw [ey]
  revert hy
  generalize s.assignRoot low l0 = z
  obtain ⟨z1, z2⟩ := z
  intro hy
  cases z2
  · exact .panic
  · exact .ok hy

theorem cancelUntil_fixed (s : Stk) (low : Nat → Bool) (lv : Nat) : (s.cancelUntil low lv).level = s.level ∧ (s.cancelUntil low lv).numVars = s.numVars := by
  unfold cancelUntil
  split
  · exact ⟨rfl, rfl⟩
  · unfold unassignFrom saveTrail clearSaved insertHeaps
    simp only []
    split <;> exact ⟨rfl, rfl⟩

theorem learnClause_sim {db : Cdb} {s : Stk} {x : QStk} (h : QRel s x) (g : Gs db s) (low : Nat → Bool) (drift : Bool) {v : Cls}
    (hv : ∀ q ∈ v, s.assign q.var ≠ none) (lv : Nat) : HRel (learnClause db s low drift v lv) (learnClauseQ db x low drift v lv) := by
  have hrw : rewardC db x v = true := by
    refine List.all_eq_true.2 fun l hl => ?_
    rw [Bool.and_eq_true]
    refine ⟨g.okV h (hv l hl), ?_⟩
    have e2 : x.s.reason = s.reason := by rw [← h.same]
    rw [e2]
    cases hr : s.reason l.var with
    | none => exact absurd hr (g.rn _ (hv l hl))
    | decision k => rfl
    | binary m => exact okV_of h (g.bn _ m hr)
    | impl cid =>
      simp only [Bool.and_eq_true]
      exact ⟨okC_of (g.rs _ cid hr).1, List.all_eq_true.2 fun m hm => okV_of h (g.rg.cl _ m hm)⟩
  unfold learnClause learnClauseQ
  simp only []
  rw [if_pos hrw]
  generalize (drift && decide (0 < lv) && decide (2 < v.length)) = dr
  have hx : ∃ x1, (if dr = true then (x.cancelUntilQ low (lv - 1)).bind clearSavedQ else x.cancelUntilQ low lv) = some x1 ∧
      QRel (if dr = true then (s.cancelUntil low (lv - 1)).clearSaved else s.cancelUntil low lv) x1 ∧
      (if dr = true then (s.cancelUntil low (lv - 1)).clearSaved else s.cancelUntil low lv).level = s.level ∧
      (if dr = true then (s.cancelUntil low (lv - 1)).clearSaved else s.cancelUntil low lv).numVars = s.numVars := by
    cases dr with
    | true =>
      obtain ⟨y, ey, hy⟩ := h.cancelUntil low (lv - 1)
      obtain ⟨z, ez, hz, -⟩ := hy.clearSaved
      exact ⟨z, by simp [ey, ez], by simpa using hz, cancelUntil_fixed s low (lv - 1)⟩
    | false =>
      obtain ⟨y, ey, hy⟩ := h.cancelUntil low lv
      exact ⟨y, by simp [ey], by simpa using hy, cancelUntil_fixed s low lv⟩
  obtain ⟨x1, e1, h1, l1, n1⟩ := hx
  rw [e1]
  revert h1 l1 n1
  generalize (if dr = true then (s.cancelUntil low (lv - 1)).clearSaved else s.cancelUntil low lv) = s1
  intro h1 l1 n1
  simp only []
  have hin : ∀ q ∈ v, 1 ≤ q.var ∧ q.var ≤ s1.numVars := fun q hq => by rw [n1]; exact g.as _ (hv q hq)
  have ex1 : x1.s.level = s1.level := by rw [← h1.same]
  have ex2 : x1.s.numVars = s1.numVars := by rw [← h1.same]
  rw [if_pos (List.all_eq_true.2 fun l hl => by
    rw [Bool.and_eq_true]
    refine ⟨okV_of h1 (hin l hl), ?_⟩
    rw [ex1, ex2, l1, n1]; simpa using g.lw l.var), ex1]
  rcases v with _ | ⟨l0, _ | ⟨l1', tl⟩⟩
  · exact .panic
  · exact .panic
  simp only []
  have asg : ∀ (db1 : Cdb) (r : Reason), HRel (.ok db1 (s1.assignImpl l0 r lv)) (match x1.assignImplQ l0 r lv with | .none => .panic | some x2 => .ok db1 x2) := by
    intro db1 r
    obtain ⟨y, ey, hy⟩ := h1.assignImpl (hin l0 (by simp)) r lv
    rw [ey]
    exact .ok hy
  cases hn : db.newClause s1.level (l0 :: l1' :: tl) true with
  | none => exact .panic
  | some y =>
    obtain ⟨db1, rf⟩ := y
    cases rf with
    | clause cid =>
      simp only []
      cases dr with
      | true => exact .ok h1
      | false => exact asg db1 _
    | registered cid =>
      simp only []
      cases dr with
      | true => exact .ok h1
      | false => exact asg db1 _
    | dead => exact .panic
    | emptyClause => exact .panic
    | unit l => exact .panic

theorem rerank_lits (db : Cdb) (level : Nat → Nat) (rr : Option Nat) (i : Nat) : ((db.rerankOne level rr).clause i).lits = (db.clause i).lits ∧
    (db.rerankOne level rr).len = db.len ∧ (db.rerankOne level rr).watch = db.watch ∧ (db.rerankOne level rr).blist = db.blist := by
  unfold Cdb.rerankOne
  split
  · exact ⟨rfl, rfl, rfl, rfl⟩
  · split
    · exact ⟨rfl, rfl, rfl, rfl⟩
    · refine ⟨?_, rfl, rfl, rfl⟩
      simp only [Cdb.setC, upd_apply]
      split
      · rename_i h; subst h; rfl
      · rfl

theorem Gs.rerank {db : Cdb} {s : Stk} (g : Gs db s) (level : Nat → Nat) (rr : Option Nat) : Gs (db.rerankOne level rr) s := by
  have e := fun i => (rerank_lits db level rr i).1
  obtain ⟨-, e2, e3, e4⟩ := rerank_lits db level rr 0
  have ea : ∀ r, antecedents (db.rerankOne level rr) r = antecedents db r := by
    intro r; cases r <;> simp [antecedents, e]
  exact ⟨g.as, g.lv, by simpa only [ea] using g.ant, by simpa only [e, e2] using g.rs, g.bn, g.rn,
    ⟨by simpa only [e] using g.rg.cl, by simpa only [e3, e2] using g.rg.wt, by simpa only [e4, e2] using g.rg.bl⟩,
    by simpa only [e, e4] using g.bl, g.lw, g.tr⟩

theorem handleConflict_sim {db : Cdb} {s : Stk} {x : QStk} (h : QRel s x) (g : Gs db s) (low : Nat → Bool) (rr : Option Nat) (drift : Bool) {l : Lit}
    {r : Reason} (hl : s.assign l.var ≠ none) (hr : ∀ q ∈ antecedents db r, s.assign q.var ≠ none)
    (hc : ∀ cid, r = .impl cid → 1 ≤ cid ∧ cid < db.len) :
    HRel (handleConflict db s low rr drift l r) (handleConflictQ db x low rr drift l r) := by
  have e2 : x.s.level = s.level := by rw [← h.same]
  have er : rootConflict db x.s r = rootConflict db s r := by
    obtain ⟨hp, e⟩ := h.of
    rw [e]; cases r <;> rfl
  have hrc : rootC db x r = true := by
    cases r with
    | impl cid =>
      unfold rootC
      simp only [Bool.and_eq_true]
      exact ⟨okC_of (hc cid rfl), List.all_eq_true.2 fun m hm => okV_of h (g.rg.cl _ m hm)⟩
    | _ => rfl
  obtain ⟨k1, k2⟩ := g.analyze h hl hr hc
  unfold handleConflict handleConflictQ
  rw [if_pos hrc, er, k1, e2]
  split
  · exact .unsat h
  cases hk : conflictAnalyze db s l r with
  | none => exact .panic
  | some y =>
    obtain ⟨v, lv, f⟩ := y
    have hv := k2 v lv f hk
    rcases v with _ | ⟨l0, _ | ⟨l1, tl⟩⟩
    · exact .unsat h
    · exact learnUnit_sim h low (g.as _ (hv l0 (by simp)))
    · exact learnClause_sim h (g.rerank _ rr) low drift hv lv

end Splr
