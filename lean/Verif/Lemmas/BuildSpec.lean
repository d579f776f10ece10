import Verif.Lemmas.SearchSpec
/-! Building a solver: `add_clause`, `add_assignment` and the injection of a formula. -/
namespace Splr
open Stk

/-! ## normalisation of a clause -/

theorem Lit.var_lt_of_ord {k l : Lit} (h : k.ord ≤ l.ord) (h1 : k ≠ l) (h2 : k ≠ l.neg) : k.var < l.var := by
  obtain ⟨a, x⟩ := k; obtain ⟨b, y⟩ := l
  simp only [Lit.ord, Lit.mk.injEq, not_and, ne_eq, Lit.neg] at *
  rcases Nat.lt_trichotomy a b with h' | h' | h'
  · exact h'
  · subst h'
    have := h1 rfl; have := h2 rfl
    cases x <;> cases y <;> simp_all
  · exfalso; cases x <;> cases y <;> simp at h <;> omega

theorem sortLits_mem {c : Cls} {l : Lit} : l ∈ sortLits c ↔ l ∈ c := (List.perm_insertionSort _ c).mem_iff

theorem sortLits_sorted (c : Cls) : (sortLits c).Pairwise (fun a b => a.ord ≤ b.ord) := by
  have : Std.Total (fun a b : Lit => a.ord ≤ b.ord) := ⟨fun a b => Nat.le_total _ _⟩
  have : IsTrans Lit (fun a b => a.ord ≤ b.ord) := ⟨fun _ _ _ h1 h2 => Nat.le_trans h1 h2⟩
  exact List.pairwise_insertionSort _ c

theorem normLits_none {val : Lit → Option Bool} : ∀ {ls : Cls} {last : Option Lit}, normLits val ls last = none →
    (∃ l ∈ ls, val l = some true) ∨ (∃ l ∈ ls, l.neg ∈ ls ∨ last = some l.neg)
  | [], _, h => by simp [normLits] at h
  | l :: ls, last, h => by
    unfold normLits at h
    split at h
    · rename_i hc
      rcases hc with hc | hc
      · exact .inl ⟨l, by simp, hc⟩
      · exact .inr ⟨l, by simp, .inr hc⟩
    · split at h
      · simp only [Option.map_eq_none_iff] at h
        rcases normLits_none h with ⟨m, hm, hv⟩ | ⟨m, hm, hv⟩
        · exact .inl ⟨m, by simp [hm], hv⟩
        · rcases hv with hv | hv
          · exact .inr ⟨m, by simp [hm], .inl (by simp [hv])⟩
          · simp only [Option.some.injEq] at hv
            exact .inr ⟨m, by simp [hm], .inl (by simp [← hv])⟩
      · rcases normLits_none h with ⟨m, hm, hv⟩ | ⟨m, hm, hv⟩
        · exact .inl ⟨m, by simp [hm], hv⟩
        · rcases hv with hv | hv
          · exact .inr ⟨m, by simp [hm], .inl (by simp [hv])⟩
          · exact .inr ⟨m, by simp [hm], .inr hv⟩

theorem normLits_some {val : Lit → Option Bool} : ∀ {ls : Cls} {last : Option Lit} {v : Cls}, ls.Pairwise (fun a b => a.ord ≤ b.ord) →
    (∀ k, last = some k → ∀ l ∈ ls, k.ord ≤ l.ord) → normLits val ls last = some v →
    (∀ l ∈ v, l ∈ ls ∧ val l = none) ∧ (∀ l ∈ ls, l ∈ v ∨ val l = some false ∨ last = some l) ∧ v.Pairwise (fun a b => a.var < b.var) ∧
      (∀ k, last = some k → ∀ l ∈ v, k.var < l.var)
  | [], _, v, _, _, h => by simp [normLits] at h; subst h; simp
  | l :: ls, last, v, hs, hk, h => by
    have hs' := List.pairwise_cons.1 hs
    unfold normLits at h
    split at h
    · simp at h
    · rename_i hc
      simp only [not_or] at hc
      split at h
      · rename_i hc2
        obtain ⟨w, hw, rfl⟩ := Option.map_eq_some_iff.1 h
        obtain ⟨h1, h2, h3, h4⟩ := normLits_some (last := some l) hs'.2 (fun k e m hm => by
          simp only [Option.some.injEq] at e; subst e; exact hs'.1 m hm) hw
        have hvn : val l = none := by
          cases hv : val l with
          | none => rfl
          | some b => cases b <;> simp [hv] at hc hc2
        have hkl : ∀ k, last = some k → k.var < l.var := fun k e =>
          Lit.var_lt_of_ord (hk k e l (by simp)) (fun e' => hc2.2 (by rw [e, e'])) (fun e' => hc.2 (by rw [e, e']))
        refine ⟨?_, ?_, List.pairwise_cons.2 ⟨h4 l rfl, h3⟩, ?_⟩
        · intro m hm
          rcases List.mem_cons.1 hm with rfl | hm
          · exact ⟨by simp, hvn⟩
          · exact ⟨by simp [(h1 m hm).1], (h1 m hm).2⟩
        · intro m hm
          rcases List.mem_cons.1 hm with rfl | hm
          · exact .inl (by simp)
          · rcases h2 m hm with h | h | h
            · exact .inl (by simp [h])
            · exact .inr (.inl h)
            · simp only [Option.some.injEq] at h; exact .inl (by simp [h])
        · intro k e m hm
          rcases List.mem_cons.1 hm with rfl | hm
          · exact hkl k e
          · exact Nat.lt_trans (hkl k e) (h4 l rfl m hm)
      · rename_i hc2
        obtain ⟨h1, h2, h3, h4⟩ := normLits_some (last := last) hs'.2 (fun k e m hm => hk k e m (by simp [hm])) h
        refine ⟨fun m hm => ⟨by simp [(h1 m hm).1], (h1 m hm).2⟩, ?_, h3, h4⟩
        intro m hm
        rcases List.mem_cons.1 hm with rfl | hm
        · right
          by_cases hv : val m = some false
          · exact .inl hv
          · right; by_contra he; exact hc2 ⟨hv, he⟩
        · exact h2 m hm

/-! ## the state of a solver being built -/

/-- The state of a solver that was given `F`. -/
structure BOK (F : Form) (x : Sol) : Prop where
  rinv : RInv x.db x.s
  dom : Dom x.db x.s
  cnt : Cnt x.s
  mod : ∀ D, Cons D → (∀ c ∈ F ++ adds x.db.cert, Resp D c) → Mod x.db x.s D
  cert : Chain (fun D => Cons D ∧ ∀ c ∈ F, Resp D c) (adds x.db.cert)
  prim : ∀ i, (x.db.clause i).lits ≠ [] → (x.db.clause i).learnt = false
  cov : Cov F x.db x.s
  unl : Unl x.db
  lim : x.s.lim = []
  saved : x.s.saved = []
  store : x.store = []
  elim : ∀ v, x.s.elim v = false
  only : x.db.cert = (adds x.db.cert).map .add
  live : x.db.lives ≤ bag (adds x.db.cert)
  ups : ∀ D, Cons D → (∀ c ∈ F, Resp D c) → ∀ c ∈ adds x.db.cert, Resp D c

/-- The clauses of a chain are accepted. -/
theorem chain_accepted {F : Form} : ∀ {new pre : List Cls} {K : Form}, (∀ d, d ∈ K ↔ d ∈ pre ∨ d ∈ F) →
    Chain (fun D => Cons D ∧ ∀ c ∈ F, Resp D c) (pre ++ new) → Accepted false K (new.map .add)
  | [], _, _, _, _ => trivial
  | c :: new, pre, K, hk, hc => by
    refine ⟨.inl (rup_of_no_closed fun D hD hr hx => ?_), ?_⟩
    · exact hc pre c new rfl D ⟨hD, fun d hd => hr d ((hk d).2 (.inr hd))⟩ (fun d hd => hr d ((hk d).2 (.inl hd))) hx
    · refine chain_accepted (new := new) (pre := pre ++ [c]) (K := c :: K) (fun d => ?_) (by simpa using hc)
      simp only [List.mem_cons, hk d, List.mem_append, List.not_mem_nil, or_false]; tauto

theorem BOK.chk {F : Form} {x : Sol} (h : BOK F x) : Chk F x.db x.s := by
  refine ⟨by rw [h.only]; exact chain_accepted (pre := []) (by simp) h.cert, ?_⟩
  rw [h.only]
  refine ⟨by rw [bag_adds]; exact h.live.trans (Multiset.le_add_left _ _), fun l hl => ?_⟩
  by_cases hc : Clash (listedAll false F ((adds x.db.cert).map .add))
  · exact .inr hc
  · left
    obtain ⟨c1, c2⟩ := up_closed hc
    have := h.mod _ c1 fun c hc => c2 c ((listedAll_adds c).2 (by simpa [or_comm] using hc))
    exact this.root l hl.1 hl.2

theorem Covered.sat {db : Cdb} {s : Stk} {c : Cls} (h : Covered db s c) {b : Asg} (hp : SatL db b) (hu : SatU s b) : Cls.sat b c := by
  rcases h with ⟨l, hl, hr⟩ | ⟨i, hi, hs⟩ | ⟨l, h1, h2⟩
  · exact ⟨l, hl, hu l hr⟩
  · obtain ⟨x, hx, hs'⟩ := hp i hi; exact ⟨x, hs x hx, hs'⟩
  · by_cases hl : l.sat b
    · exact ⟨l, h1, hl⟩
    · exact ⟨l.neg, h2, by simpa using hl⟩

theorem BOK.satL {F : Form} {x : Sol} (h : BOK F x) {b : Asg} (hp : SatP x.db b) : SatL x.db b := fun i hi => hp i hi (.inl (h.prim i hi))

theorem BOK.derivation {F : Form} {x : Sol} (h : BOK F x) : Derivation F (adds x.db.cert) := by
  intro pre c post e
  refine .inl (rup_of_no_closed fun D hD hr hx => h.cert pre c post e D ⟨hD, fun d hd => hr d (by simp [hd])⟩ (fun d hd => hr d (by simp [hd])) hx)

theorem BOK.glob {F : Form} {x : Sol} (h : BOK F x) : Glob F x.db x.s [] := by
  refine ⟨h.rinv, h.dom, h.cnt, h.mod, h.derivation, fun b hp hu c hc => ?_, fun b hp _ => h.satL hp, ⟨?_, by simp, by simp⟩, fun _ b hp hu c hc => ?_, h.chk⟩
  · exact (h.cov c (by simp [hc])).sat (h.satL hp) hu
  · intro v hv; rw [h.elim v] at hv; simp at hv
  · exact (h.cov c (by simp [hc])).sat (h.satL hp) hu

/-- The models of the given clauses are the models of the state. -/
theorem BOK.models {F : Form} {x : Sol} (h : BOK F x) (b : Asg) : Form.sat b F ↔ SatL x.db b ∧ SatU x.s b := by
  constructor
  · intro hF
    have ha : ∀ c ∈ adds x.db.cert, Cls.sat b c := h.cert.sat ⟨cons_of_asg b, fun c hc => .of_sat (hF c hc)⟩
    have hm := h.mod (fun l => l.sat b) (cons_of_asg b) fun c hc => by
      rcases List.mem_append.1 hc with hc | hc
      · exact .of_sat (hF c hc)
      · exact .of_sat (ha c hc)
    refine ⟨fun i hi => ?_, fun l hl => hm.root l hl.1 hl.2⟩
    obtain ⟨y, hy, hn⟩ := hm.conf i hi
    exact ⟨y, hy, by simpa using hn⟩
  · rintro ⟨hl, hu⟩ c hc
    exact (h.cov c (by simp [hc])).sat hl hu

theorem bok_new (nv : Nat) : BOK [] (Sol.new nv) := by
  have hd : ∀ i, ((Sol.new nv).db.clause i).lits = [] := fun i => rfl
  refine ⟨⟨Cdb.wf_new, inv_new _ nv⟩, ⟨fun i l hl => by rw [hd i] at hl; simp at hl, fun v hv => absurd rfl hv, ?_, fun c hc => by simp [Sol.new, Cdb.new] at hc, fun v => by show (if v ≤ nv then v else 0) ≤ nv; split <;> omega⟩, ?_, ?_, ?_, ?_, ?_, ?_, rfl, rfl, rfl, fun _ => rfl, rfl, ?_, fun D _ _ c hc => by simp [Sol.new, Cdb.new] at hc⟩
  · intro v hv
    rcases hv with hv | hv
    · simp only [Sol.new, Stk.new, List.mem_map, List.mem_range] at hv ⊢
      obtain ⟨a, ha, rfl⟩ := hv; omega
    · simp [Sol.new, Stk.new] at hv
  · exact ⟨[], [], by simp, rfl, by simp [Sol.new, Stk.new], by simp, rfl, by simp [Sol.new, Stk.new]⟩
  · intro D _ _
    refine mod_of (fun i hi => absurd (hd i) hi) fun l hl => ?_
    simp [Root, tr, Sol.new, Stk.new] at hl
  · exact .nil
  · exact fun i hi => absurd (hd i) hi
  · intro c hc; simp [Sol.new, Cdb.new] at hc
  · exact fun i hi => absurd (hd i) hi
  · unfold Cdb.lives; rw [Finset.sum_eq_zero fun i _ => by rw [hd i]; rfl]; exact Multiset.zero_le _

/-- `add_var` -/
theorem BOK.addVar {F : Form} {x : Sol} (h : BOK F x) : BOK F x.addVar.1 := by
  have hok : ∀ v, Okv x.s v → Okv x.s.newVar v := fun v hv => ⟨hv.1, Nat.le_succ_of_le hv.2.1, hv.2.2⟩
  refine ⟨⟨h.rinv.wf, h.rinv.inv.congr rfl rfl rfl rfl rfl h.rinv.inv.qh (fun _ _ _ e _ => e) (fun _ _ h => h)⟩,
    ⟨fun i l hl => hok _ (h.dom.cl i l hl), fun v hv => hok v (h.dom.as v hv), fun v hv => ?_, fun c hc => ⟨(h.dom.ct c hc).1, fun l hl => ⟨((h.dom.ct c hc).2 l hl).1, Nat.le_succ_of_le ((h.dom.ct c hc).2 l hl).2⟩⟩, fun v => Nat.le_succ_of_le (h.dom.lv v)⟩, ?_, fun D hD hr => ⟨(h.mod D hD hr).cl, (h.mod D hD hr).conf, (h.mod D hD hr).root⟩, h.cert, h.prim, h.cov, h.unl, h.lim, h.saved, h.store, h.elim, h.only, h.live, h.ups⟩
  · have := h.dom.hp v hv; exact ⟨this.1, Nat.le_succ_of_le this.2⟩
  · obtain ⟨A, E, a1, a2, a3, e1, e2, e3⟩ := h.cnt
    refine ⟨A, E, a1, a2, a3, e1, e2, fun v => ?_⟩
    rw [e3]
    show _ ∧ _ ↔ x.s.elim v = true ∧ 1 ≤ v ∧ v ≤ x.s.numVars + 1
    rw [h.elim v]; simp

/-- A given clause adds nothing if it is covered. -/
theorem BOK.covered {F : Form} {x : Sol} (h : BOK F x) {c : Cls} (hc : Covered x.db x.s c) : BOK (F ++ [c]) x := by
  refine ⟨h.rinv, h.dom, h.cnt, fun D hD hr => h.mod D hD fun d hd => hr d ?_, ?_, h.prim, ?_, h.unl, h.lim, h.saved, h.store, h.elim, h.only, h.live, fun D hD hr => h.ups D hD fun d hd => hr d (by simp [hd])⟩
  · rcases List.mem_append.1 hd with hd | hd <;> simp [hd]
  · intro pre d post e D hD hp hx
    exact h.cert pre d post e D ⟨hD.1, fun a ha => hD.2 a (by simp [ha])⟩ hp hx
  · intro d hd
    simp only [List.mem_append, List.mem_singleton] at hd
    rcases hd with (hd | rfl) | hd
    · exact h.cov d (by simp [hd])
    · exact hc
    · exact h.cov d (by simp [hd])

/-- The assignment of an undecided literal at the root level. -/
theorem assignRoot_new {db : Cdb} {s : Stk} (hi : Inv db s) (hl : s.lim = []) {l : Lit} (hn : s.assign l.var = none) :
    ∃ s', s.assignRoot noLow l = (s', true) ∧ (∀ db', Inv db' s') ∧ s'.lim = [] ∧ (∀ m, s'.tr m ↔ s.tr m ∨ m = l) ∧
      (∀ m, Root s' m ↔ Root s m ∨ m = l) ∧ SP s s' ∧ s'.saved = s.saved ∧ s'.elim = s.elim ∧ (∀ v ∈ s'.heap, v ∈ s.heap) ∧
      s'.assign = upd s.assign l.var (some l.pos) := by
  have hc0 : s.cancelUntil noLow 0 = s := cancelUntil_noop (by unfold Stk.dl; rw [hl]; simp)
  obtain ⟨i1, i2, i3⟩ := hi.assignRoot noLow l
  obtain ⟨a1, a2, a3, a4, a5, a6⟩ := assignRoot_saved (s := s) (low := noLow) (l := l)
  rw [hc0] at i3 a1 a2
  have hheap : ∀ v ∈ s.heap, v ≠ l.var → v ∈ (s.assignRoot noLow l).1.heap := by
    intro v hv hne
    unfold Stk.assignRoot; rw [hc0]; simp only []; split
    · simp only [makeAsserted, List.mem_filter]; exact ⟨hv, by simpa using hne⟩
    · exact hv
  have hheap3 := assignRoot_heap (s := s) (low := noLow) (l := l)
  rw [hc0] at hheap3
  generalize hg : s.assignRoot noLow l = g at *
  obtain ⟨s1, b⟩ := g
  simp only [] at i1 i2 i3 a1 a2 a3 a4 a5 a6 hheap hheap3
  have hroot1 : ∀ m, s1.tr m → s1.level m.var = 0 := fun m hm => i1.level_root i2 (tr_assigned hm)
  have hroot0 : ∀ m, s.tr m → s.level m.var = 0 := fun m hm => hi.level_root hl (tr_assigned hm)
  rcases i3 with ⟨-, hb, ea, et⟩ | ⟨ht, hb, ea, et⟩ | ⟨ht, hb, ea, et⟩
  · subst hb
    have htr : ∀ m, s1.tr m ↔ s.tr m ∨ m = l := by
      intro m
      unfold tr; rw [ea]
      by_cases e : m.var = l.var
      · rw [e, upd_same, hn]
        constructor
        · intro h; right; cases m; cases l; simp at h e; simp [e, h]
        · rintro (h | rfl)
          · simp at h
          · rfl
      · rw [upd_of_ne _ _ e]
        exact ⟨.inl, fun h => h.resolve_right fun h => e (by rw [h])⟩
    refine ⟨s1, rfl, fun db' => i1.root_db i2, i2, htr, fun m => ?_, SP.push hn ea et a3 a4 a5 a6 a1 hheap, a1, a3, hheap3, ea⟩
    constructor
    · intro h; exact ((htr m).1 h.1).imp (fun h => ⟨h, hroot0 m h⟩) id
    · intro h
      have : s1.tr m := (htr m).2 (h.imp (·.1) id)
      exact ⟨this, hroot1 m this⟩
  · exact absurd hn (tr_assigned ht)
  · exact absurd hn (by have := tr_assigned ht; rwa [Lit.neg_var] at this)

theorem Chain.mono {M M' : (Lit → Prop) → Prop} {new : List Cls} (h : Chain M new) (hm : ∀ D, M' D → M D) : Chain M' new :=
  fun pre c post e D hD hp hx => h pre c post e D (hm D hD) hp hx

theorem only_log {db : Cdb} {c : Cls} (h : db.cert = (adds db.cert).map .add) : (db.log (.add c)).cert = (adds (db.log (.add c)).cert).map .add := by
  rw [adds_log_add]; show db.cert ++ [.add c] = _; conv_lhs => rw [h]
  simp

theorem live_log {db : Cdb} {c : Cls} (hw : db.WF) (h : db.lives ≤ bag (adds db.cert)) : (db.log (.add c)).lives ≤ bag (adds (db.log (.add c)).cert) := by
  rw [lives_perm (db := db) (db' := db.log (.add c)) hw (Cdb.wf_lits hw (fun _ => ⟨rfl, rfl⟩) rfl rfl rfl rfl rfl) fun _ => .refl _, adds_log_add, bag_append]
  exact h.trans (Multiset.le_add_right _ _)

/-- The last literal of a given clause that is not false is asserted. -/
theorem BOK.unit {F : Form} {x : Sol} (h : BOK F x) {c : Cls} {l : Lit} (hlc : l ∈ c) (hf : ∀ m ∈ c, m = l ∨ Root x.s m.neg)
    (hn : x.s.assign l.var = none) (hv : 1 ≤ l.var ∧ l.var ≤ x.s.numVars) :
    ∃ s', x.s.assignRoot noLow l = (s', true) ∧ BOK (F ++ [c]) { x with db := x.db.log (.add [l]), s := s' } ∧
      s'.assign = upd x.s.assign l.var (some l.pos) ∧ s'.numVars = x.s.numVars := by
  obtain ⟨s', e, hi, hl, htr, hroot, sp, hsv, hel, hh, ha⟩ := assignRoot_new h.rinv.inv h.lim hn
  have hlv : ∀ v, s'.level v ≤ x.s.level v := fun v => by
    have := assignRoot_level (s := x.s) (low := noLow) (l := l) v; rwa [e] at this
  refine ⟨s', e, ?_, ha, sp.numVars⟩
  have hcl : ∀ i, ((x.db.log (.add [l])).clause i) = x.db.clause i := fun _ => rfl
  have hmod : ∀ D, Cons D → (∀ d ∈ F ++ [c] ++ adds x.db.cert, Resp D d) → Mod x.db x.s D := fun D hD hr => h.mod D hD fun d hd => hr d (by
    rcases List.mem_append.1 hd with hd | hd <;> simp [hd])
  refine ⟨⟨Cdb.wf_lits h.rinv.wf (fun _ => ⟨rfl, rfl⟩) rfl rfl rfl rfl rfl, hi _⟩, ⟨fun i m hm => sp.okv.2 (h.dom.cl i m hm), fun v hv' => sp.okv.2 ?_, fun v hv' => ?_, fun d hd => ?_, fun v => by show s'.level v ≤ s'.numVars; rw [sp.numVars]; exact (hlv v).trans (h.dom.lv v)⟩,
    sp.cnt h.cnt, fun D hD hr => ?_, ?_, h.prim, ?_, h.unl, hl, hsv.trans h.saved, h.store, fun v => by show s'.elim v = false; rw [hel]; exact h.elim v, only_log h.only, live_log h.rinv.wf h.live, fun D hD hr d hd => ?_⟩
  · obtain ⟨b, hb⟩ := tr_of_assign hv'
    rcases (htr _).1 hb with h1 | h1
    · exact h.dom.as v (tr_assigned h1)
    · have : v = l.var := by rw [← h1]
      rw [this]; exact ⟨hv.1, hv.2, h.elim _⟩
  · show 1 ≤ v ∧ v ≤ s'.numVars
    rw [sp.numVars]
    refine h.dom.hp v ?_
    rcases hv' with h1 | h1
    · exact .inl (hh v h1)
    · right; rw [← hsv]; exact h1
  · simp only [adds_log_add, List.mem_append, List.mem_singleton] at hd
    show Word s'.numVars d
    rw [sp.numVars]
    rcases hd with hd | rfl
    · exact h.dom.ct d hd
    · exact ⟨by simp, fun m hm => by rw [List.mem_singleton.1 hm]; exact hv⟩
  · simp only [adds_log_add] at hr
    have h0 := hmod D hD fun d hd => hr d (by
      rcases List.mem_append.1 hd with hd | hd
      · simp only [List.mem_append]; exact .inl (List.mem_append.1 hd)
      · simp [hd])
    refine mod_of (fun i hne => h0.resp hne) fun m hm => ?_
    rcases (hroot m).1 hm with h1 | rfl
    · exact h0.root m h1.1 h1.2
    · exact (hr [m] (by simp)).1 m (by simp) (by simp)
  · simp only [adds_log_add]
    refine (h.cert.mono fun D hD => ⟨hD.1, fun d hd => hD.2 d (by simp [hd])⟩).append (M' := fun D => MC x.db x.s D ∧ Resp D c)
      (.one fun D hD hx => ?_) fun D hD hr => ⟨⟨hmod D hD.1 fun d hd => ?_, hD.1⟩, hD.2 c (by simp)⟩
    · obtain ⟨y, hy, hyn⟩ := hD.2.2
      rcases hf y hy with rfl | h1
      · exact hyn (hx y (by simp))
      · exact hyn (hD.1.1.root _ h1.1 h1.2)
    · rcases List.mem_append.1 hd with hd | hd
      · exact hD.2 d hd
      · exact hr d hd
  · intro d hd
    simp only [adds_log_add] at hd
    have h1 : ∀ m, Root x.s m → Root s' m := fun m hm => (hroot m).2 (.inl hm)
    have hl' : Root s' l := (hroot l).2 (.inr rfl)
    simp only [List.mem_append, List.mem_singleton] at hd
    rcases hd with (hd | rfl) | hd | rfl
    · exact covered_same (db' := x.db.log (.add [l])) (fun _ _ => .rfl) h1 (h.cov d (by simp [hd]))
    · exact .inl ⟨l, hlc, hl'⟩
    · exact covered_same (db' := x.db.log (.add [l])) (fun _ _ => .rfl) h1 (h.cov d (by simp [hd]))
    · exact .inl ⟨l, by simp, hl'⟩
  · simp only [adds_log_add, List.mem_append, List.mem_singleton] at hd
    have hF : ∀ d ∈ F, Resp D d := fun d hd => hr d (by simp [hd])
    rcases hd with hd | rfl
    · exact h.ups D hD hF d hd
    · have h0 := h.mod D hD fun d hd => by
        rcases List.mem_append.1 hd with hd | hd
        · exact hF d hd
        · exact h.ups D hD hF d hd
      have hDl : D l := (hr c (by simp)).1 l hlc fun m hm hne => by
        rcases hf m hm with rfl | h1
        · exact absurd rfl hne
        · exact h0.root _ h1.1 h1.2
      exact ⟨fun x hx _ => by rw [List.mem_singleton.1 hx]; exact hDl, l, by simp, hD l hDl⟩

/-- The normalised form of a given clause is added. -/
theorem BOK.clause {F : Form} {x : Sol} (h : BOK F x) {c v : Cls} (hsub : ∀ m ∈ v, m ∈ c) (hf : ∀ m ∈ c, m ∈ v ∨ Root x.s m.neg)
    (hnd : (v.map Lit.var).Nodup) (hv : ∀ l ∈ c, 1 ≤ l.var ∧ l.var ≤ x.s.numVars) {lvl : Nat → Nat} {db' : Cdb} {rf : RefClause}
    (e : x.db.newClause lvl v false = some (db', rf)) : BOK (F ++ [c]) { x with db := db' } ∧ rf ≠ .emptyClause := by
  obtain ⟨w, hcase⟩ := Cdb.newClause_spec h.rinv.wf hnd e
  rcases hcase with ⟨cid, a, b, rfl, rfl, rfl, ec⟩ | ⟨cid, k, rfl, -, -, ec, elits, h2, -, elr, -, ecl, ecert⟩
  · refine ⟨h.covered (.inr (.inl ⟨cid, by rcases ec with e | e <;> rw [e] <;> simp, fun m hm => hsub m ?_⟩)), by simp⟩
    rcases ec with e | e <;> rw [e] at hm <;> simp at hm ⊢ <;> tauto
  · refine ⟨?_, by simp⟩
    have hkeep : ∀ i, (x.db.clause i).lits ≠ [] → db'.clause i = x.db.clause i := by
      intro i hi; rw [ecl, upd_of_ne]; rintro rfl; exact hi ec
    have hcid : db'.clause cid = k := by rw [ecl]; simp
    have hold : ∀ i, i ≠ cid → db'.clause i = x.db.clause i := fun i hi => by rw [ecl, upd_of_ne _ _ hi]
    have hne : k.lits ≠ [] := by rw [elits]; intro e; rw [e] at h2; simp at h2
    have hadd : adds db'.cert = adds x.db.cert ++ [v] := by rw [ecert]; simp
    have hmod : ∀ D, Cons D → (∀ d ∈ F ++ [c] ++ adds x.db.cert, Resp D d) → Mod x.db x.s D := fun D hD hr => h.mod D hD fun d hd => hr d (by
      rcases List.mem_append.1 hd with hd | hd <;> simp [hd])
    have hcovm : ∀ d, Covered x.db x.s d → Covered db' x.s d := by
      rintro d (h1 | ⟨i, hi, h1⟩ | h1)
      · exact .inl h1
      · exact .inr (.inl ⟨i, by rw [hkeep i hi]; exact hi, by rw [hkeep i hi]; exact h1⟩)
      · exact .inr (.inr h1)
    have hcv : ∀ d, (∀ m ∈ v, m ∈ d) → Covered db' x.s d := fun d hd =>
      .inr (.inl ⟨cid, by rw [hcid]; exact hne, fun m hm => by rw [hcid, elits] at hm; exact hd m hm⟩)
    refine ⟨⟨w, h.rinv.inv.root_db h.lim⟩, ⟨fun i l hl => ?_, h.dom.as, h.dom.hp, fun d hd => ?_, h.dom.lv⟩, h.cnt, fun D hD hr => ?_, ?_, fun i hi => ?_, ?_, fun i hi => ?_, h.lim, h.saved, h.store, h.elim, ?_, ?_, fun D hD hr d hd => ?_⟩
    · simp only [] at hl
      by_cases ei : i = cid
      · subst ei; rw [hcid, elits] at hl
        have := hv l (hsub l hl); exact ⟨this.1, this.2, h.elim _⟩
      · rw [hold i ei] at hl; exact h.dom.cl i l hl
    · simp only [hadd, List.mem_append, List.mem_singleton] at hd
      rcases hd with hd | rfl
      · exact h.dom.ct d hd
      · exact ⟨by rw [← elits]; exact hne, fun m hm => hv m (hsub m hm)⟩
    · simp only [hadd] at hr
      have h0 := hmod D hD fun d hd => hr d (by
        rcases List.mem_append.1 hd with hd | hd
        · simp only [List.mem_append]; exact .inl (List.mem_append.1 hd)
        · simp [hd])
      refine mod_of (fun i hi => ?_) fun m hm => h0.root m hm.1 hm.2
      simp only [] at hi ⊢
      by_cases ei : i = cid
      · subst ei; rw [hcid, elits]; exact hr v (by simp)
      · rw [hold i ei] at hi ⊢; exact h0.resp hi
    · simp only [hadd]
      refine (h.cert.mono fun D hD => ⟨hD.1, fun d hd => hD.2 d (by simp [hd])⟩).append (M' := fun D => MC x.db x.s D ∧ Resp D c)
        (.one fun D hD hx => ?_) fun D hD hr => ⟨⟨hmod D hD.1 fun d hd => ?_, hD.1⟩, hD.2 c (by simp)⟩
      · obtain ⟨y, hy, hyn⟩ := hD.2.2
        rcases hf y hy with h1 | h1
        · exact hyn (hx y h1)
        · exact hyn (hD.1.1.root _ h1.1 h1.2)
      · rcases List.mem_append.1 hd with hd | hd
        · exact hD.2 d hd
        · exact hr d hd
    · simp only [] at hi ⊢
      by_cases ei : i = cid
      · subst ei; rw [hcid]; rw [elr]; rfl
      · rw [hold i ei] at hi ⊢; exact h.prim i hi
    · intro d hd
      simp only [hadd, List.mem_append, List.mem_singleton] at hd
      rcases hd with (hd | rfl) | hd | rfl
      · exact hcovm d (h.cov d (by simp [hd]))
      · exact hcv d hsub
      · exact hcovm d (h.cov d (by simp [hd]))
      · exact hcv d fun _ h => h
    · simp only [] at hi ⊢
      by_cases ei : i = cid
      · subst ei; exact newClause_linked h.rinv.wf e
      · rw [hold i ei] at hi ⊢; exact h.unl i hi
    · simp only []; rw [hadd, ecert]; conv_lhs => rw [h.only]
      simp
    · simp only []; rw [hadd, bag_append]
      have := lives_add h.rinv.wf w hold ec (c := v) (by rw [hcid, elits])
      rw [bag_nil, add_zero] at this
      exact this.trans (Multiset.add_le_add_right h.live)
    · simp only [hadd, List.mem_append, List.mem_singleton] at hd
      have hF : ∀ d ∈ F, Resp D d := fun d hd => hr d (by simp [hd])
      rcases hd with hd | rfl
      · exact h.ups D hD hF d hd
      · have h0 := h.mod D hD fun d hd => by
          rcases List.mem_append.1 hd with hd | hd
          · exact hF d hd
          · exact h.ups D hD hF d hd
        obtain ⟨r1, y, hy, hyn⟩ := hr c (by simp)
        refine ⟨fun x hx hx' => r1 x (hsub x hx) fun m hm hne => ?_, y, ?_, hyn⟩
        · rcases hf m hm with h1 | h1
          · exact hx' m h1 hne
          · exact h0.root _ h1.1 h1.2
        · rcases hf y hy with h1 | h1
          · exact h1
          · exact absurd (h0.root _ h1.1 h1.2) hyn

theorem Refutation.of_false {F : Form} {steps : List Cls} (h : Derivation F steps) (hf : ∀ D, Cons D → (∀ c ∈ F ++ steps, Resp D c) → False) :
    Refutation F steps := by
  refine h.append fun pre c post e => .inl (rup_of_no_closed fun D hD hr _ => hf D hD fun d hd => hr d ?_)
  rcases List.mem_append.1 hd with hd | hd <;> simp [hd]

/-- The outcome of `add_unchecked_clause`. -/
theorem addUnchecked_spec {F : Form} {x : Sol} (h : BOK F x) {c : Cls} (hv : ∀ l ∈ c, 1 ≤ l.var ∧ l.var ≤ x.s.numVars) :
    ∃ y rf, x.addUnchecked c = some (y, rf) ∧ y.cnf = x.cnf ∧ y.s.numVars = x.s.numVars ∧
      (rf ≠ .emptyClause → BOK (F ++ [c]) y) ∧ (rf = .emptyClause → y = x ∧ Refutation (F ++ [c]) (adds x.db.cert)) := by
  have hroot : ∀ m : Lit, x.s.val m = some false → Root x.s m.neg := fun m hm => by
    have := val_false.1 hm
    exact ⟨this, h.rinv.inv.level_root h.lim (tr_assigned this)⟩
  have hder : Derivation (F ++ [c]) (adds x.db.cert) := by
    intro pre d post e
    exact .inl (rup_of_no_closed fun D hD hr hx => h.cert pre d post e D ⟨hD, fun a ha => hr a (by simp [ha])⟩ (fun a ha => hr a (by simp [ha])) hx)
  have href : (∀ m ∈ c, Root x.s m.neg) → Refutation (F ++ [c]) (adds x.db.cert) := by
    intro hall
    refine .of_false hder fun D hD hr => ?_
    have h0 := h.mod D hD fun d hd => hr d (by rcases List.mem_append.1 hd with hd | hd <;> simp [hd])
    obtain ⟨y, hy, hyn⟩ := (hr c (by simp)).2
    exact hyn (h0.root _ (hall y hy).1 (hall y hy).2)
  unfold Sol.addUnchecked
  split
  · rename_i hc; subst hc
    exact ⟨x, .emptyClause, rfl, rfl, rfl, by simp, fun _ => ⟨rfl, href (by simp)⟩⟩
  · cases hn : normLits x.s.val (sortLits c) none with
    | none =>
      refine ⟨x, .dead, rfl, rfl, rfl, fun _ => h.covered ?_, by simp⟩
      rcases normLits_none hn with ⟨l, hl, ht⟩ | ⟨l, hl, ht⟩
      · rw [sortLits_mem] at hl
        have := val_true.1 ht
        exact .inl ⟨l, hl, this, h.rinv.inv.level_root h.lim (tr_assigned this)⟩
      · rw [sortLits_mem] at hl
        rcases ht with ht | ht
        · rw [sortLits_mem] at ht; exact .inr (.inr ⟨l, hl, ht⟩)
        · simp at ht
    | some v =>
      obtain ⟨h1, h2, h3, -⟩ := normLits_some (sortLits_sorted c) (by simp) hn
      have hsub : ∀ m ∈ v, m ∈ c := fun m hm => sortLits_mem.1 (h1 m hm).1
      have hf : ∀ m ∈ c, m ∈ v ∨ Root x.s m.neg := by
        intro m hm
        rcases h2 m (sortLits_mem.2 hm) with h | h | h
        · exact .inl h
        · exact .inr (hroot m h)
        · simp at h
      have hnd : (v.map Lit.var).Nodup := by
        rw [List.nodup_iff_pairwise_ne, List.pairwise_map]
        exact h3.imp fun h => Nat.ne_of_lt h
      match v, h1, h2, h3, hsub, hf, hnd with
      | [], h1, h2, h3, hsub, hf, hnd =>
        exact ⟨x, .emptyClause, rfl, rfl, rfl, by simp, fun _ => ⟨rfl, href fun m hm => (hf m hm).resolve_left (by simp)⟩⟩
      | [l], h1, h2, h3, hsub, hf, hnd =>
        obtain ⟨s', e, hb, -, hnv⟩ := h.unit (c := c) (hsub l (by simp)) (fun m hm => (hf m hm).imp (by simp) id) (val_none.1 (h1 l (by simp)).2)
          (hv l (hsub l (by simp)))
        simp only [e]
        exact ⟨_, _, rfl, rfl, hnv, fun _ => hb, by simp⟩
      | l0 :: l1 :: tl, h1, h2, h3, hsub, hf, hnd =>
        obtain ⟨⟨db', rf⟩, e⟩ := Cdb.newClause_isSome (db := x.db) (level := x.s.level) (vec := l0 :: l1 :: tl) (learnt := false) (by simp)
        obtain ⟨hb, hne⟩ := h.clause hsub hf hnd hv e
        simp only [e]
        exact ⟨_, _, rfl, rfl, rfl, fun _ => hb, fun h => absurd h hne⟩

end Splr
