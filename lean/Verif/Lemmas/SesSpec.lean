import Verif.Lemmas.Grow
/-! A solver that is given more clauses between two calls of `solve`. -/
namespace Splr
open Stk

theorem Form.sat_append {b : Asg} {F G : Form} : Form.sat b (F ++ G) ↔ Form.sat b F ∧ Form.sat b G :=
  ⟨fun h => ⟨fun c hc => h c (by simp [hc]), fun c hc => h c (by simp [hc])⟩, fun h c hc => (List.mem_append.1 hc).elim (h.1 c) (h.2 c)⟩

/-- A clause that all models of the state satisfy may be counted as given. -/
theorem Glob.given {H : Form} {db : Cdb} {s : Stk} (h : Glob H db s []) {E : Form} (hE : ∀ c ∈ adds db.cert, c ∈ E)
    (hs : ∀ b, SatL db b → SatU s b → Form.sat b E) : Glob (H ++ E) db s [] := by
  refine ⟨h.rinv, h.dom, h.cnt, fun D hD hr => h.mod D hD fun c hc => hr c ?_, fun pre c post e => .inl ?_, fun b hp hu c hc => ?_, h.imp, h.st, h.all, (h.chk.grow hE).1⟩
  · simp only [List.mem_append] at hc ⊢
    rcases hc with hc | hc
    · exact .inl (.inl hc)
    · exact .inr hc
  · refine rup_of_no_closed fun D hD hr hx => ?_
    have hc : c ∈ H ++ E := List.mem_append_right _ (hE c (by rw [e]; simp))
    obtain ⟨y, hy, hn⟩ := (hr c (List.mem_append_left _ hc)).2
    exact hn (hx y hy)
  · rcases List.mem_append.1 hc with hc | hc
    · exact h.ext b hp hu c hc
    · exact hs b (h.imp b hp hu) hu c hc

theorem Glob.elim_false {H : Form} {db : Cdb} {s : Stk} (h : Glob H db s []) (v : Nat) : s.elim v = false := by
  cases he : s.elim v with
  | false => rfl
  | true => obtain ⟨r, hr, -⟩ := h.st.cover _ he; simp at hr

/-- A new clause. -/
theorem AOK.newClause {H : Form} {nv : Nat} {db : Cdb} {s : Stk} (h : AOK H nv (db, s)) {v : Cls} (hnd : (v.map Lit.var).Nodup)
    (hv : ∀ l ∈ v, 1 ≤ l.var ∧ l.var ≤ s.numVars) {lvl : Nat → Nat} {db' : Cdb} {rf : RefClause} (e : db.newClause lvl v false = some (db', rf)) :
    rf ≠ .emptyClause ∧ (∃ H', AOK H' nv (db', s)) ∧ ∀ b, SatL db' b ↔ SatL db b ∧ Cls.sat b v := by
  have g := h.glob
  simp only [] at g
  obtain ⟨w, hcase⟩ := Cdb.newClause_spec g.rinv.wf hnd e
  rcases hcase with ⟨cid, a, b, rfl, rfl, rfl, ec⟩ | ⟨cid, k, rfl, -, -, ec, elits, h2, -, elr, -, ecl, ecert⟩
  · refine ⟨by simp, ⟨H, h⟩, fun b' => ⟨fun hb => ⟨hb, ?_⟩, fun hb => hb.1⟩⟩
    obtain ⟨l, hl, hs⟩ := hb cid (by rcases ec with e | e <;> rw [e] <;> simp)
    refine ⟨l, ?_, hs⟩
    rcases ec with e | e <;> rw [e] at hl <;> simp at hl ⊢ <;> tauto
  · have hcid : db'.clause cid = k := by rw [ecl]; simp
    have hold : ∀ i, i ≠ cid → db'.clause i = db.clause i := fun i hi => by rw [ecl, upd_of_ne _ _ hi]
    have hkeep : ∀ i, (db.clause i).lits ≠ [] → db'.clause i = db.clause i := by
      intro i hi; refine hold i ?_; rintro rfl; exact hi ec
    have hne : k.lits ≠ [] := by rw [elits]; intro e; rw [e] at h2; simp at h2
    have hadd : adds db'.cert = adds db.cert ++ [v] := by rw [ecert]; simp
    have hprim : Prim (db'.clause cid) := .inl (by rw [hcid, elr]; rfl)
    have hP : ∀ b, SatP db' b → SatP db b ∧ Cls.sat b v := fun b hb =>
      ⟨fun i hi hp => by have := hkeep i hi; have := hb i (by rw [this]; exact hi) (by rw [this]; exact hp); rwa [hkeep i hi] at this,
        by have := hb cid (by rw [hcid]; exact hne) hprim; rwa [hcid, elits] at this⟩
    have hL : ∀ b, SatL db' b ↔ SatL db b ∧ Cls.sat b v := by
      intro b
      refine ⟨fun hb => ⟨fun i hi => ?_, ?_⟩, fun hb i hi => ?_⟩
      · have := hb i (by rw [hkeep i hi]; exact hi); rwa [hkeep i hi] at this
      · have := hb cid (by rw [hcid]; exact hne); rwa [hcid, elits] at this
      · by_cases ei : i = cid
        · subst ei; rw [hcid, elits]; exact hb.2
        · rw [hold i ei] at hi ⊢; exact hb.1 i hi
    refine ⟨by simp, ⟨H ++ (adds db.cert ++ [v]), ?_, h.lim, h.saved, fun i hi => ?_, h.nv⟩, hL⟩
    swap
    · simp only [] at hi ⊢
      by_cases ei : i = cid
      · subst ei; exact newClause_linked g.rinv.wf e
      · rw [hold i ei] at hi ⊢; exact h.unl i hi
    have hall : ∀ b, SatP db' b → SatU s b → Form.sat b (H ++ (adds db.cert ++ [v])) := by
      intro b hp hu c hc
      obtain ⟨hp, hv⟩ := hP b hp
      simp only [List.mem_append, List.mem_singleton] at hc
      rcases hc with hc | hc | rfl
      · exact g.ext b hp hu c hc
      · exact g.all rfl b hp hu c hc
      · exact hv
    refine ⟨⟨w, g.rinv.inv.root_db h.lim⟩, ⟨fun i l hl => ?_, g.dom.as, g.dom.hp, fun d hd => ?_, g.dom.lv⟩, g.cnt, fun D hD hr => ?_, fun pre c post e => .inl ?_,
      hall, fun b hp hu => (hL b).2 ⟨g.imp b (hP b hp).1 hu, (hP b hp).2⟩, g.st, fun _ b hp hu c hc => hall b hp hu c (by simp only [] at hc; rw [hadd] at hc; exact List.mem_append_right _ hc), ?_⟩
    · simp only [] at hl
      by_cases ei : i = cid
      · subst ei; rw [hcid, elits] at hl
        have := hv l hl; exact ⟨this.1, this.2, g.elim_false _⟩
      · rw [hold i ei] at hl; exact g.dom.cl i l hl
    · simp only [hadd, List.mem_append, List.mem_singleton] at hd
      rcases hd with hd | rfl
      · exact g.dom.ct d hd
      · exact ⟨by rw [← elits]; exact hne, hv⟩
    · have h0 := g.mod D hD fun d hd => hr d (by
        simp only [List.mem_append] at hd ⊢; tauto)
      refine mod_of (fun i hi => ?_) fun m hm => h0.root m hm.1 hm.2
      simp only [] at hi ⊢
      by_cases ei : i = cid
      · subst ei; rw [hcid, elits]; exact hr v (by simp)
      · rw [hold i ei] at hi ⊢; exact h0.resp hi
    · refine rup_of_no_closed fun D hD hr hx => ?_
      have hc : c ∈ H ++ (adds db.cert ++ [v]) := List.mem_append_right _ (by rw [← hadd]; simp only [] at e; rw [e]; simp)
      obtain ⟨y, hy, hn⟩ := (hr c (List.mem_append_left _ hc)).2
      exact hn (hx y hy)
    · obtain ⟨g1, g2⟩ := g.chk.grow (E := adds db.cert ++ [v]) fun c hc => by simp [hc]
      have e2 : listedAll false (H ++ (adds db.cert ++ [v])) (db.cert ++ [.add v]) = v :: listedAll false (H ++ (adds db.cert ++ [v])) db.cert := by
        rw [listedAll_append]; rfl
      refine ⟨by simp only []; rw [ecert]; exact g1.acc.append ⟨g2 v (by simp), trivial⟩, ?_⟩
      simp only []
      rw [ecert, e2]
      refine ⟨?_, fun l hlr => ?_⟩
      · have := lives_add g.rinv.wf w hold ec (c := v) (by rw [hcid, elits])
        rw [bag_nil, add_zero] at this
        refine this.trans ?_
        rw [bag_cons, bag_cons, bag_nil, ← Multiset.singleton_add, add_comm]
        exact Multiset.add_le_add_left g1.foll.live
      · have hm : ∀ l, Up (listedAll false (H ++ (adds db.cert ++ [v])) db.cert) l → Up (v :: listedAll false (H ++ (adds db.cert ++ [v])) db.cert) l :=
          fun l hu => hu.mono fun d hd => by simp [hd]
        refine (g1.foll.root l hlr).imp (hm l) ?_
        rintro (⟨d, hd, hx⟩ | ⟨m, h1, h2⟩)
        · exact .inl ⟨d, by simp [hd], fun m hmm => hm _ (hx m hmm)⟩
        · exact .inr ⟨m, hm _ h1, hm _ h2⟩

/-- A new variable. -/
theorem AOK.newVar {H : Form} {nv : Nat} {db : Cdb} {s : Stk} (h : AOK H nv (db, s)) : AOK H (nv + 1) (db, s.newVar) := by
  have g := h.glob
  simp only [] at g
  have hok : ∀ v, Okv s v → Okv s.newVar v := fun v hv => ⟨hv.1, Nat.le_succ_of_le hv.2.1, hv.2.2⟩
  refine ⟨⟨⟨g.rinv.wf, g.rinv.inv.congr rfl rfl rfl rfl rfl g.rinv.inv.qh (fun _ _ _ e _ => e) (fun _ _ h => h)⟩,
    ⟨fun i l hl => hok _ (g.dom.cl i l hl), fun v hv => hok v (g.dom.as v hv), fun v hv => ?_, fun c hc => ⟨(g.dom.ct c hc).1, fun l hl => ⟨((g.dom.ct c hc).2 l hl).1, Nat.le_succ_of_le ((g.dom.ct c hc).2 l hl).2⟩⟩, fun v => Nat.le_succ_of_le (g.dom.lv v)⟩, ?_,
    fun D hD hr => ⟨(g.mod D hD hr).cl, (g.mod D hD hr).conf, (g.mod D hD hr).root⟩, g.cert, g.ext, g.imp, ⟨fun v hv => g.st.cover v hv, fun r hr => by simp at hr, fun pre r post e => by simp at e⟩, g.all, g.chk.stk fun l h => h⟩,
    h.lim, h.saved, h.unl, ?_⟩
  · have := g.dom.hp v hv; exact ⟨this.1, Nat.le_succ_of_le this.2⟩
  · obtain ⟨A, E, a1, a2, a3, e1, e2, e3⟩ := g.cnt
    refine ⟨A, E, a1, a2, a3, e1, e2, fun v => ?_⟩
    rw [e3]
    show _ ∧ _ ↔ s.elim v = true ∧ 1 ≤ v ∧ v ≤ s.numVars + 1
    rw [g.elim_false v]; simp
  · show s.numVars + 1 = _
    rw [show s.numVars = nv from h.nv]

/-! ## the state between two calls -/

/-- The solver holds exactly: the clauses `F` and the facts `K`. -/
structure SesOK (F : Form) (K : Lit → Prop) (x : Sol) : Prop where
  aok : ∃ H, AOK H x.s.numVars (x.db, x.s)
  store : x.store = []
  mods : ∀ b, (Form.sat b F ∧ ∀ l, K l → l.sat b) ↔ SatL x.db b ∧ SatU x.s b
  facts : ∀ l, K l → Root x.s l
  rng : Rng F x.s.numVars

theorem BOK.sesOK {F : Form} {x : Sol} (h : BOK F x) (hF : Rng F x.s.numVars) : SesOK F (fun _ => False) x :=
  ⟨⟨F, h.glob, h.lim, h.saved, h.unl, rfl⟩, h.store, fun b => by simpa using h.models b, fun _ h => h.elim, hF⟩

/-- The given clauses are among those the certificate is about. -/
theorem SesOK.agOK {F : Form} {K : Lit → Prop} {x : Sol} (h : SesOK F K x) :
    ∃ G, AgOK G x ∧ (∀ c ∈ F, c ∈ G) ∧ ∀ b, Form.sat b F → (∀ l, K l → l.sat b) → Form.sat b G := by
  obtain ⟨H, a⟩ := h.aok
  have g := a.glob
  have hs : ∀ b, SatL x.db b → SatU x.s b → Form.sat b (adds x.db.cert ++ F) := fun b hl hu c hc => by
    rcases List.mem_append.1 hc with hc | hc
    · exact g.all rfl b hl.satP hu c hc
    · exact ((h.mods b).2 ⟨hl, hu⟩).1 c hc
  refine ⟨H ++ (adds x.db.cert ++ F), ⟨⟨_, .refl _, g.given (fun c hc => by simp [hc]) hs, a.lim, a.saved, a.unl, rfl⟩, h.store⟩, fun c hc => by simp [hc], fun b h1 h2 c hc => ?_⟩
  obtain ⟨hl, hu⟩ := (h.mods b).1 ⟨h1, h2⟩
  rcases List.mem_append.1 hc with hc | hc
  · exact g.ext b hl.satP hu c hc
  · exact hs b hl hu c hc

/-- A call of `solve` between additions. -/
theorem SesOK.solve {F : Form} {K : Lit → Prop} {x : Sol} (h : SesOK F K x) {cfg : Cfg} (hen : cfg.enable = true) {p : Pre} {os : List Orc} {low : Nat → Bool} :
    match solve cfg p os low x with
    | .sat vals y => Canonical vals x.s.numVars ∧ Form.sat (valsAsg vals) F ∧ y.s.numVars = x.s.numVars ∧ (∀ l, Root x.s l → Root y.s l) ∧
        (y.store = [] → y.s.saved = [] → SesOK F (Root y.s) y)
    | .unsat _ => ¬ ∃ b, Form.sat b F ∧ ∀ l, K l → l.sat b
    | _ => True := by
  obtain ⟨G, ha, hsub, hG⟩ := h.agOK
  have hs := solve_again_sub (p := p) (os := os) (low := low) hsub hen ha h.rng
  cases hr : Splr.solve cfg p os low x with
  | sat vals y =>
    rw [hr] at hs
    obtain ⟨h1, h2, h3, h4⟩ := hs
    have w := solve_mono hen ha hr
    refine ⟨h1, h2, h3, w.root, fun e1 e2 => ?_⟩
    obtain ⟨⟨G', hc, a⟩, -⟩ := h4 e1 e2
    refine ⟨⟨G', a⟩, e1, fun b => ⟨fun hb => ?_, fun hb => ?_⟩, fun l hl => hl, by rw [h3]; exact h.rng⟩
    · have hu : SatU y.s b := hb.2
      have := (h.mods b).1 ⟨hb.1, fun l hl => hu l (w.root l (h.facts l hl))⟩
      exact ⟨w.sat b this.1 hu, hu⟩
    · exact ⟨fun c hcF => a.glob.ext b hb.1.satP hb.2 c (hc.1 c (hsub c hcF)), hb.2⟩
  | unsat db =>
    rw [hr] at hs
    rintro ⟨b, h1, h2⟩
    exact hs ⟨b, hG b h1 h2⟩
  | _ => trivial

/-- Something the models of the state satisfy is given. -/
theorem SesOK.covered {F : Form} {K : Lit → Prop} {x : Sol} (h : SesOK F K x) {c : Cls} (hv : ∀ l ∈ c, 1 ≤ l.var ∧ l.var ≤ x.s.numVars)
    (hc : ∀ b, SatL x.db b → SatU x.s b → Cls.sat b c) : SesOK (F ++ [c]) K x := by
  refine ⟨h.aok, h.store, fun b => ⟨fun hb => (h.mods b).1 ⟨fun d hd => hb.1 d (by simp [hd]), hb.2⟩, fun hb => ?_⟩, h.facts, fun d hd => ?_⟩
  · obtain ⟨h1, h2⟩ := (h.mods b).2 hb
    refine ⟨fun d hd => ?_, h2⟩
    simp only [List.mem_append, List.mem_singleton] at hd
    rcases hd with hd | rfl
    · exact h1 d hd
    · exact hc b hb.1 hb.2
  · simp only [List.mem_append, List.mem_singleton] at hd
    rcases hd with hd | rfl
    · exact h.rng d hd
    · exact hv

/-- `v` is what is left of `c`. -/
theorem sat_norm {s : Stk} {c v : Cls} (hsub : ∀ m ∈ v, m ∈ c) (hf : ∀ m ∈ c, m ∈ v ∨ Root s m.neg) {b : Asg} (hu : SatU s b) :
    Cls.sat b c ↔ Cls.sat b v := by
  constructor
  · rintro ⟨l, hl, hs⟩
    rcases hf l hl with h | h
    · exact ⟨l, h, hs⟩
    · exact absurd hs (by simpa using hu _ h)
  · rintro ⟨l, hl, hs⟩; exact ⟨l, hsub l hl, hs⟩

/-- The last literal of a given clause that is not false is asserted. -/
theorem SesOK.unit {F : Form} {K : Lit → Prop} {x : Sol} (h : SesOK F K x) {c : Cls} {l : Lit} (hlc : l ∈ c) (hf : ∀ m ∈ c, m = l ∨ Root x.s m.neg)
    (hn : x.s.assign l.var = none) (hv : ∀ l ∈ c, 1 ≤ l.var ∧ l.var ≤ x.s.numVars) :
    ∃ s', x.s.assignRoot noLow l = (s', true) ∧ SesOK (F ++ [c]) K { x with db := x.db.log (.add [l]), s := s' } ∧ s'.numVars = x.s.numVars := by
  obtain ⟨H, a⟩ := h.aok
  have g := a.glob
  have hok : Okv x.s l.var := ⟨(hv l hlc).1, (hv l hlc).2, g.elim_false _⟩
  obtain ⟨s2, e2, g2, hl2, hsv, hnv⟩ := g.assume a.lim hn hok
  obtain ⟨s', e, -, -, -, hroot, -⟩ := assignRoot_new g.rinv.inv a.lim hn
  have hss : s' = s2 := by
    have e3 : x.s.assignRootRes (x.db.log (.add [l])) l = .ok (x.db.log (.add [l]), s') := by unfold Stk.assignRootRes; rw [e]
    simp only [] at e2
    rw [e2] at e3; simpa using e3.symm
  subst hss
  simp only [] at hsv hnv hroot
  have hmods : ∀ b, SatU s' b ↔ SatU x.s b ∧ l.sat b := fun b =>
    ⟨fun hu => ⟨fun m hm => hu m ((hroot m).2 (.inl hm)), hu l ((hroot l).2 (.inr rfl))⟩, fun hu m hm => by
      rcases (hroot m).1 hm with h1 | rfl
      · exact hu.1 m h1
      · exact hu.2⟩
  refine ⟨s', e, ⟨⟨_, g2, hl2, hsv.trans a.saved, a.unl, rfl⟩, h.store, fun b => ?_, fun m hm => (hroot m).2 (.inl (h.facts m hm)), fun d hd => ?_⟩, hnv⟩
  · have hn1 : SatU x.s b → (Cls.sat b c ↔ Cls.sat b [l]) := sat_norm (by simpa using hlc) fun m hm => (hf m hm).imp (by simp) id
    have h1 : Cls.sat b [l] ↔ l.sat b := by simp [Cls.sat]
    show _ ↔ SatL x.db b ∧ SatU s' b
    rw [hmods, Form.sat_append]
    have hm := h.mods b
    have h2 : Form.sat b [c] ↔ Cls.sat b c := by simp [Form.sat]
    rw [h2]
    constructor
    · rintro ⟨⟨a1, a2⟩, a3⟩
      obtain ⟨b1, b2⟩ := hm.1 ⟨a1, a3⟩
      exact ⟨b1, b2, h1.1 ((hn1 b2).1 a2)⟩
    · rintro ⟨b1, b2, b3⟩
      obtain ⟨a1, a3⟩ := hm.2 ⟨b1, b2⟩
      exact ⟨⟨a1, (hn1 b2).2 (h1.2 b3)⟩, a3⟩
  · show ∀ l ∈ d, 1 ≤ l.var ∧ l.var ≤ s'.numVars
    rw [hnv]
    simp only [List.mem_append, List.mem_singleton] at hd
    rcases hd with hd | rfl
    · exact h.rng d hd
    · exact hv

/-- The normalised form of a given clause is added. -/
theorem SesOK.clause {F : Form} {K : Lit → Prop} {x : Sol} (h : SesOK F K x) {c v : Cls} (hsub : ∀ m ∈ v, m ∈ c) (hf : ∀ m ∈ c, m ∈ v ∨ Root x.s m.neg)
    (hnd : (v.map Lit.var).Nodup) (hv : ∀ l ∈ c, 1 ≤ l.var ∧ l.var ≤ x.s.numVars) {lvl : Nat → Nat} {db' : Cdb} {rf : RefClause}
    (e : x.db.newClause lvl v false = some (db', rf)) : SesOK (F ++ [c]) K { x with db := db' } ∧ rf ≠ .emptyClause := by
  obtain ⟨H, a⟩ := h.aok
  obtain ⟨h1, h2, h3⟩ := a.newClause hnd (fun l hl => hv l (hsub l hl)) e
  refine ⟨⟨h2, h.store, fun b => ?_, h.facts, fun d hd => ?_⟩, h1⟩
  · have hn1 : SatU x.s b → (Cls.sat b c ↔ Cls.sat b v) := sat_norm hsub hf
    show _ ↔ SatL db' b ∧ SatU x.s b
    rw [h3, Form.sat_append]
    have hm := h.mods b
    have h2 : Form.sat b [c] ↔ Cls.sat b c := by simp [Form.sat]
    rw [h2]
    constructor
    · rintro ⟨⟨a1, a2⟩, a3⟩
      obtain ⟨b1, b2⟩ := hm.1 ⟨a1, a3⟩
      exact ⟨⟨b1, (hn1 b2).1 a2⟩, b2⟩
    · rintro ⟨⟨b1, b3⟩, b2⟩
      obtain ⟨a1, a3⟩ := hm.2 ⟨b1, b2⟩
      exact ⟨⟨a1, (hn1 b2).2 b3⟩, a3⟩
  · simp only [List.mem_append, List.mem_singleton] at hd
    rcases hd with hd | rfl
    · exact h.rng d hd
    · exact hv

/-- No model of `F` with the facts `K`. -/
def NoModel (F : Form) (K : Lit → Prop) : Prop := ¬ ∃ b, Form.sat b F ∧ ∀ l, K l → l.sat b

/-- The outcome of `add_unchecked_clause`. -/
theorem SesOK.addUnchecked {F : Form} {K : Lit → Prop} {x : Sol} (h : SesOK F K x) {c : Cls} (hv : ∀ l ∈ c, 1 ≤ l.var ∧ l.var ≤ x.s.numVars) :
    ∃ y rf, x.addUnchecked c = some (y, rf) ∧ y.s.numVars = x.s.numVars ∧
      (rf ≠ .emptyClause → SesOK (F ++ [c]) K y) ∧ (rf = .emptyClause → y = x ∧ NoModel (F ++ [c]) K) := by
  obtain ⟨H, a⟩ := h.aok
  have hi := a.glob.rinv.inv
  simp only [] at hi
  have hlim : x.s.lim = [] := a.lim
  have hroot : ∀ m : Lit, x.s.val m = some false → Root x.s m.neg := fun m hm => by
    have := val_false.1 hm
    exact ⟨this, hi.level_root hlim (tr_assigned this)⟩
  have href : (∀ m ∈ c, Root x.s m.neg) → NoModel (F ++ [c]) K := by
    rintro hall ⟨b, h1, h2⟩
    rw [Form.sat_append] at h1
    obtain ⟨-, hu⟩ := (h.mods b).1 ⟨h1.1, h2⟩
    obtain ⟨l, hl, hs⟩ := h1.2 c (by simp)
    exact absurd hs (by simpa using hu _ (hall l hl))
  unfold Sol.addUnchecked
  split
  · rename_i hc; subst hc
    exact ⟨x, .emptyClause, rfl, rfl, by simp, fun _ => ⟨rfl, href (by simp)⟩⟩
  · cases hn : normLits x.s.val (sortLits c) none with
    | none =>
      refine ⟨x, .dead, rfl, rfl, fun _ => h.covered hv fun b hl hu => ?_, by simp⟩
      rcases normLits_none hn with ⟨l, hl, ht⟩ | ⟨l, hl, ht⟩
      · rw [sortLits_mem] at hl
        have := val_true.1 ht
        exact ⟨l, hl, hu l ⟨this, hi.level_root hlim (tr_assigned this)⟩⟩
      · rw [sortLits_mem] at hl
        rcases ht with ht | ht
        · rw [sortLits_mem] at ht
          by_cases hs : l.sat b
          · exact ⟨l, hl, hs⟩
          · exact ⟨l.neg, ht, by simpa using hs⟩
        · simp at ht
    | some v =>
      obtain ⟨h1, h2, h3, -⟩ := normLits_some (sortLits_sorted c) (by simp) hn
      have hsub : ∀ m ∈ v, m ∈ c := fun m hm => sortLits_mem.1 (h1 m hm).1
      have hf : ∀ m ∈ c, m ∈ v ∨ Root x.s m.neg := by
        intro m hm
        rcases h2 m (sortLits_mem.2 hm) with h | h | h
        · exact .inl h
        · exact .inr (hroot m h)
        · simp at h
      have hnd : (v.map Lit.var).Nodup := by
        rw [List.nodup_iff_pairwise_ne, List.pairwise_map]
        exact h3.imp fun h => Nat.ne_of_lt h
      match v, h1, h2, h3, hsub, hf, hnd with
      | [], h1, h2, h3, hsub, hf, hnd =>
        exact ⟨x, .emptyClause, rfl, rfl, by simp, fun _ => ⟨rfl, href fun m hm => (hf m hm).resolve_left (by simp)⟩⟩
      | [l], h1, h2, h3, hsub, hf, hnd =>
        obtain ⟨s', e, hb, hnv⟩ := h.unit (c := c) (hsub l (by simp)) (fun m hm => (hf m hm).imp (by simp) id) (val_none.1 (h1 l (by simp)).2) hv
        simp only [e]
        exact ⟨_, _, rfl, hnv, fun _ => hb, by simp⟩
      | l0 :: l1 :: tl, h1, h2, h3, hsub, hf, hnd =>
        obtain ⟨⟨db', rf⟩, e⟩ := Cdb.newClause_isSome (db := x.db) (level := x.s.level) (vec := l0 :: l1 :: tl) (learnt := false) (by simp)
        obtain ⟨hb, hne⟩ := h.clause hsub hf hnd hv e
        simp only [e]
        exact ⟨_, _, rfl, rfl, fun _ => hb, fun h => absurd h hne⟩

/-- The outcome of `add_clause`. -/
theorem SesOK.addClause {F : Form} {K : Lit → Prop} {x : Sol} (h : SesOK F K x) (v : List Int) :
    ∃ y e, x.addClause v = some (y, e) ∧ (e = some .invalidLiteral ↔ v.any x.badLit = true) ∧
      (e = none → SesOK (F ++ [clsOf v]) K y) ∧ (e ≠ none → y = x) ∧
      (e = none ∨ e = some .invalidLiteral ∨ (e = some .emptyClause ∧ NoModel (F ++ [clsOf v]) K)) := by
  unfold Sol.addClause
  split
  · rename_i hb
    exact ⟨x, _, rfl, by simp [hb], by simp, fun _ => rfl, by simp⟩
  · rename_i hb
    have hb' : v.any x.badLit = false := by simpa using hb
    obtain ⟨y, rf, e, h2, h3, h4⟩ := h.addUnchecked (ofInt_range hb')
    split
    · rename_i hv
      have hr : RefClause.emptyClause = rf ∧ x = y := by
        subst hv; simp [clsOf, Sol.addUnchecked] at e; exact ⟨e.2, e.1⟩
      exact ⟨x, _, rfl, by simp [hb'], by simp, fun _ => rfl, .inr (.inr ⟨rfl, (h4 hr.1.symm).2⟩)⟩
    · unfold clsOf at e
      rw [e]
      by_cases hr : rf = .emptyClause
      · subst hr
        exact ⟨y, _, rfl, by simp [hb'], by simp, fun _ => (h4 rfl).1, .inr (.inr ⟨rfl, (h4 rfl).2⟩)⟩
      · refine ⟨y, none, ?_, by simp [hb'], fun _ => h3 hr, by simp, .inl rfl⟩
        cases rf <;> first | rfl | exact absurd rfl hr

/-- Logging a fact. -/
theorem SesOK.logKnown {F : Form} {K : Lit → Prop} {x : Sol} (h : SesOK F K x) {l : Lit} (hr : Root x.s l) :
    SesOK (F ++ [[l]]) K { x with db := x.db.log (.add [l]) } := by
  obtain ⟨H, a⟩ := h.aok
  have g := a.glob
  simp only [] at g
  have hl := g.dom.as l.var (tr_assigned hr.1)
  have h0 := h.covered (c := [l]) (fun m hm => by rw [List.mem_singleton.1 hm]; exact ⟨hl.1, hl.2.1⟩) fun b _ hu => ⟨l, by simp, hu l hr⟩
  refine ⟨⟨H ++ (adds x.db.cert ++ [[l]]), ?_, a.lim, a.saved, a.unl, rfl⟩, h.store, h0.mods, h.facts, h0.rng⟩
  have g' := g.given (E := adds x.db.cert ++ [[l]]) (fun c hc => by simp [hc]) fun b hL hu c hc => by
    simp only [List.mem_append, List.mem_singleton] at hc
    rcases hc with hc | rfl
    · exact g.all rfl b hL.satP hu c hc
    · exact ⟨l, by simp, hu l hr⟩
  refine ⟨⟨Cdb.wf_lits g.rinv.wf (fun _ => ⟨rfl, rfl⟩) rfl rfl rfl rfl rfl, g.rinv.inv.root_db a.lim⟩, ⟨g.dom.cl, g.dom.as, g.dom.hp, fun d hd => ?_, g.dom.lv⟩, g.cnt,
    fun D hD hr' => ?_, fun pre c post e => .inl ?_, g'.ext, g'.imp, g.st, fun _ b hp hu c hc => ?_, ?_⟩
  · simp only [adds_log_add, List.mem_append, List.mem_singleton] at hd
    rcases hd with hd | rfl
    · exact g.dom.ct d hd
    · exact ⟨by simp, fun m hm => by rw [List.mem_singleton.1 hm]; exact ⟨hl.1, hl.2.1⟩⟩
  · have := g'.mod D hD fun c hc => hr' c (by simp only [adds_log_add, List.mem_append] at hc ⊢; tauto)
    exact ⟨this.cl, this.conf, this.root⟩
  · refine rup_of_no_closed fun D hD hr hx => ?_
    have hc : c ∈ H ++ (adds x.db.cert ++ [[l]]) := List.mem_append_right _ (by
      simp only [adds_log_add] at e; rw [e]; simp)
    obtain ⟨y, hy, hn⟩ := (hr c (List.mem_append_left _ hc)).2
    exact hn (hx y hy)
  · exact g'.ext b hp hu c (List.mem_append_right _ (by simpa using hc))
  · obtain ⟨g1, g2⟩ := g.chk.grow (E := adds x.db.cert ++ [[l]]) fun c hc => by simp [hc]
    exact g1.log g.rinv.wf (g2 _ (by simp)) fun m hm => .inl hm

/-- The outcome of `add_assignment`. -/
theorem SesOK.addAssignment {F : Form} {K : Lit → Prop} {x : Sol} (h : SesOK F K x) (i : Int) :
    let r := x.addAssignment i
    (r.2 = some .invalidLiteral ↔ x.badLit i = true) ∧ (r.2 = some .invalidLiteral → r.1 = x) ∧
      (r.2 = none → SesOK (F ++ [[Lit.ofInt i]]) K r.1) ∧
      (r.2 = none ∨ r.2 = some .invalidLiteral ∨ (r.2 = some .rootConflict ∧ NoModel (F ++ [[Lit.ofInt i]]) K)) := by
  intro r
  have hr : r = x.addAssignment i := rfl
  clear_value r
  obtain ⟨H, a⟩ := h.aok
  have hi := a.glob.rinv.inv
  simp only [] at hi
  have hlim : x.s.lim = [] := a.lim
  unfold Sol.addAssignment at hr
  split at hr
  · rename_i hb; subst hr
    exact ⟨by simp [hb], by simp, by simp, by simp⟩
  · rename_i hb
    have hb' : x.badLit i = false := by simpa using hb
    have hrg := ofInt_range (x := x) (v := [i]) (by simp [hb']) (Lit.ofInt i) (by simp [clsOf])
    simp only [] at hr
    split at hr
    · rename_i hn
      obtain ⟨s', e, hb2, hnv⟩ := h.unit (c := [Lit.ofInt i]) (l := Lit.ofInt i) (by simp) (by simp) (val_none.1 hn) (by simpa using hrg)
      rw [e] at hr; subst hr
      exact ⟨by simp [hb'], by simp, fun _ => hb2, .inl rfl⟩
    · rename_i hn; subst hr
      have ht := val_true.1 hn
      exact ⟨by simp [hb'], by simp, fun _ => h.logKnown ⟨ht, hi.level_root hlim (tr_assigned ht)⟩, .inl rfl⟩
    · rename_i hn; subst hr
      refine ⟨by simp [hb'], by simp, by simp, .inr (.inr ⟨rfl, ?_⟩)⟩
      rintro ⟨b, h1, h2⟩
      rw [Form.sat_append] at h1
      obtain ⟨-, hu⟩ := (h.mods b).1 ⟨h1.1, h2⟩
      have ht := val_false.1 hn
      have := hu _ ⟨ht, hi.level_root hlim (tr_assigned ht)⟩
      obtain ⟨l, hl, hs⟩ := h1.2 [Lit.ofInt i] (by simp)
      simp only [List.mem_singleton] at hl; subst hl
      exact absurd hs (by simpa using this)

theorem SesOK.addVar {F : Form} {K : Lit → Prop} {x : Sol} (h : SesOK F K x) : SesOK F K x.addVar.1 := by
  obtain ⟨H, a⟩ := h.aok
  exact ⟨⟨H, a.newVar⟩, h.store, h.mods, h.facts, fun c hc l hl => ⟨(h.rng c hc l hl).1, Nat.le_succ_of_le (h.rng c hc l hl).2⟩⟩

end Splr
