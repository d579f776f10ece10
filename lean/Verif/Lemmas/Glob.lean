import Verif.Lemmas.VivSpec
/-! The global invariant: the state of the solver against the formula it was given. -/
namespace Splr
open Stk

/-! ## records of eliminated clauses -/

/-- One record of the elimination store: a target literal and the other literals of its clause. -/
abbrev Rec := Lit × Cls

/-- The target becomes true unless another literal is. -/
def extRec (r : Rec) (a : Asg) : Asg := if r.2.all (fun x => a x.var != x.pos) then upd a r.1.var r.1.pos else a

/-- The last record first. -/
def extR (recs : List Rec) (a : Asg) : Asg := recs.foldr extRec a

theorem extR_append (r1 r2 : List Rec) (a : Asg) : extR (r1 ++ r2) a = extR r1 (extR r2 a) := by simp [extR]

/-- The store holds, for every record, the target, the other literals and the number of literals. -/
def encode (recs : List Rec) : List Lit := recs.flatMap fun r => (r.1 :: r.2) ++ [Lit.ofOrd (r.2.length + 1)]

theorem encode_append (r1 r2 : List Rec) : encode (r1 ++ r2) = encode r1 ++ encode r2 := by simp [encode]

/-- The records are about eliminated variables; every eliminated variable has a default value, given before it is used. -/
structure StoreOK (s : Stk) (recs : List Rec) : Prop where
  cover : ∀ v, s.elim v = true → ∃ r ∈ recs, r.2 = [] ∧ r.1.var = v
  tgt : ∀ r ∈ recs, s.elim r.1.var = true
  ord : ∀ pre r post, recs = pre ++ r :: post → ∀ x ∈ r.2, 1 ≤ x.var ∧ x.var ≤ s.numVars ∧
    (s.elim x.var = false ∨ ∃ r' ∈ post, r'.2 = [] ∧ r'.1.var = x.var)

theorem StoreOK.congr {s s' : Stk} {recs : List Rec} (h : StoreOK s recs) (h1 : s'.elim = s.elim) (h2 : s'.numVars = s.numVars) : StoreOK s' recs :=
  ⟨by rw [h1]; exact h.cover, by rw [h1]; exact h.tgt, by rw [h1, h2]; exact h.ord⟩

/-! ## derivations -/

theorem Derivation.append {F : Form} {steps new : List Cls} (h : Derivation F steps)
    (hn : ∀ pre c post, new = pre ++ c :: post → RUP (F ++ (steps ++ pre)) c ∨ ∃ p, RAT (F ++ (steps ++ pre)) c p) : Derivation F (steps ++ new) := by
  intro pre c post e
  rcases List.append_eq_append_iff.1 e with ⟨a', e1, e2⟩ | ⟨c', e1, e2⟩
  · subst e1; exact hn a' c post e2
  · rcases c' with _ | ⟨x, c'⟩
    · simp at e1 e2; subst e1
      have := hn [] c post (by simpa using e2.symm)
      simpa using this
    · simp at e2; obtain ⟨rfl, -⟩ := e2
      exact h pre _ _ e1

/-! ## the checker -/

/-- The certificate is accepted so far, and the checker keeps up. -/
structure Chk (F : Form) (db : Cdb) (s : Stk) : Prop where
  acc : Accepted false F db.cert
  foll : Foll (listedAll false F db.cert) db s

/-- The certificate is a refutation, for a checker that ignores deletions and for one that follows them, over variables up to `n`. -/
def Certified (F : Form) (n : Nat) (cert : List CertRec) : Prop := Refutation F (adds cert) ∧ Verified false F cert ∧ ∀ c ∈ adds cert, Word n c

theorem Chk.sim {F : Form} {db db' : Cdb} {s s' : Stk} (h : Chk F db s) (hs : Sim db s db' s') : Chk F db' s' := by
  obtain ⟨rs, e, hk⟩ := hs
  obtain ⟨a, f⟩ := hk _ h.foll
  exact ⟨by rw [e]; exact h.acc.append a, by rw [e, listedAll_append]; exact f⟩

theorem Chk.bad {F : Form} {db db' : Cdb} {s : Stk} (h : Chk F db s) (hs : SimBad db s db') : Verified false F db'.cert := by
  obtain ⟨rs, e, hk⟩ := hs
  obtain ⟨a, f⟩ := hk _ h.foll
  exact ⟨by rw [e]; exact h.acc.append a, by rw [e, listedAll_append]; exact f.rup⟩

theorem Chk.stk {F : Form} {db : Cdb} {s s' : Stk} (h : Chk F db s) (hr : ∀ l, Root s' l → Root s l) : Chk F db s' :=
  ⟨h.acc, h.foll.live, fun l hl => h.foll.root l (hr l hl)⟩

theorem Chk.dels {F : Form} {db db' : Cdb} {s : Stk} (h : Chk F db s) (hd : Cdb.Dels db db') : Chk F db' s := by
  obtain ⟨ds, e, hn, hl⟩ := hd
  obtain ⟨b1, b2, b3, b4⟩ := dels_ok hn (hl.trans h.foll.live)
  refine ⟨by rw [e]; exact h.acc.append b1, ?_⟩
  rw [e, listedAll_append]
  exact ⟨b2, fun l hl => (h.foll.root l hl).imp (b3 l) b4⟩

theorem mem_listedAll {b : Bool} : ∀ {rs : List CertRec} {K : Form} {d : Cls}, d ∈ listedAll b K rs → d ∈ K ++ adds rs
  | [], K, d, h => by simpa [listedAll] using h
  | r :: rs, K, d, h => by
    have := mem_listedAll (b := b) (rs := rs) (K := listed b K r) h
    rcases List.mem_append.1 this with h | h
    · rcases mem_listed h with h | rfl
      · simp [h]
      · simp [adds]
    · refine List.mem_append.2 (.inr ?_)
      rw [show r :: rs = [r] ++ rs from rfl, adds_append]; simp [h]

/-- The log of a clause that is accepted. -/
theorem Chk.log {F : Form} {db : Cdb} {s s' : Stk} {c : Cls} (hw : db.WF) (h : Chk F db s) (hl : LineOK (listedAll false F db.cert) (.add c))
    (hr : ∀ l, Root s' l → Root s l ∨ c = [l]) : Chk F (db.log (.add c)) s' := by
  have e : (db.log (.add c)).cert = db.cert ++ [.add c] := rfl
  have e2 : listedAll false F (db.cert ++ [.add c]) = c :: listedAll false F db.cert := by rw [listedAll_append]; rfl
  refine ⟨by rw [e]; exact h.acc.append ⟨hl, trivial⟩, ?_⟩
  rw [e, e2]
  refine ⟨?_, fun l hlr => ?_⟩
  · rw [lives_perm (db := db) (db' := db.log (.add c)) hw (Cdb.wf_lits hw (fun _ => ⟨rfl, rfl⟩) rfl rfl rfl rfl rfl) fun _ => .refl _, bag_cons]
    exact h.foll.live.trans (Multiset.le_cons_self _ _)
  · rcases hr l hlr with hlr | rfl
    · have hm : ∀ l, Up (listedAll false F db.cert) l → Up (c :: listedAll false F db.cert) l := fun l hu => hu.mono fun d hd => by simp [hd]
      refine (h.foll.root l hlr).imp (hm l) ?_
      rintro (⟨d, hd, hx⟩ | ⟨m, h1, h2⟩)
      · exact .inl ⟨d, by simp [hd], fun m hmm => hm _ (hx m hmm)⟩
      · exact .inr ⟨m, hm _ h1, hm _ h2⟩
    · left; exact .unit (c := [l]) (by simp) (by simp) (by simp)

/-! ### more given clauses -/

theorem bag_sub {K K' : Form} (h : bag K ≤ bag K') : ∀ d ∈ K, ∃ d' ∈ K', d'.Perm d := fun d hd =>
  mem_bag.1 (Multiset.mem_of_le h (mem_bag.2 ⟨d, hd, .refl _⟩))

theorem UP.perm {K K' : Form} {A : Lit → Prop} (h : ∀ d ∈ K, ∃ d' ∈ K', d'.Perm d) {l : Lit} (hl : UP K A l) : UP K' A l := by
  induction hl with
  | assume h => exact .assume h
  | unit hc hl _ ih =>
    obtain ⟨d', hd', hp⟩ := h _ hc
    exact .unit hd' (hp.mem_iff.2 hl) fun m hm hne => ih m (hp.mem_iff.1 hm) hne

theorem Clash.perm {K K' : Form} (h : ∀ d ∈ K, ∃ d' ∈ K', d'.Perm d) (hc : Clash K) : Clash K' := by
  rcases hc with ⟨d, hd, hx⟩ | ⟨l, h1, h2⟩
  · obtain ⟨d', hd', hp⟩ := h _ hd
    exact .inl ⟨d', hd', fun m hm => (hx m (hp.mem_iff.1 hm)).perm h⟩
  · exact .inr ⟨l, h1.perm h, h2.perm h⟩

theorem rup_listed {K : Form} {c d : Cls} (hd : d ∈ K) (hp : d.Perm c) : RUP K c :=
  .inl ⟨d, hd, fun l hl => .assume (by rw [Lit.neg_neg]; exact hp.mem_iff.1 hl)⟩

theorem listed_grow {K K' E : Form} (h : bag K + bag E ≤ bag K') {r : CertRec} (hr : LineOK K r) :
    bag (listed false K r) + bag E ≤ bag (listed false K' r) := by
  cases r with
  | add c => simp only [listed, bag_cons, Multiset.cons_add]; exact (Multiset.cons_le_cons_iff _).2 h
  | del c =>
    have hm : (c : Multiset Lit) ∈ bag K := mem_bag.2 hr
    have hm' : (c : Multiset Lit) ∈ bag K' := Multiset.mem_of_le ((Multiset.le_add_right _ _).trans h) hm
    have hsub := bag_sub ((Multiset.le_add_right (bag K) (bag E)).trans h)
    have hle : bag (dropListed K c) + bag E ≤ bag (dropListed K' c) := by
      rw [bag_drop hm, bag_drop hm', Multiset.cons_add] at h
      exact (Multiset.cons_le_cons_iff _).1 h
    simp only [listed]
    by_cases hu : UnitUnder K c
    · have hu' : UnitUnder K' c := by
        obtain ⟨l, a, b, d⟩ := hu
        exact ⟨l, a, b.perm hsub, fun m hm hne => (d m hm hne).perm hsub⟩
      rw [if_pos ⟨rfl, hu⟩, if_pos ⟨rfl, hu'⟩]; exact h
    · rw [if_neg fun h => hu h.2]
      split
      · rw [bag_drop hm']; exact hle.trans (Multiset.le_cons_self _ _)
      · exact hle

theorem accepted_grow {E : Form} : ∀ {rs : List CertRec} {K K' : Form}, Accepted false K rs → (∀ c ∈ adds rs, c ∈ E) → bag K + bag E ≤ bag K' →
    Accepted false K' rs ∧ bag (listedAll false K rs) + bag E ≤ bag (listedAll false K' rs)
  | [], _, _, _, _, h => ⟨trivial, h⟩
  | r :: rs, K, K', ha, hE, h => by
    have h1 := listed_grow h ha.1
    obtain ⟨a, b⟩ := accepted_grow (rs := rs) ha.2 (fun c hc => hE c (by
      rw [show r :: rs = [r] ++ rs from rfl, adds_append]; simp [hc])) h1
    refine ⟨⟨?_, a⟩, b⟩
    cases r with
    | add c =>
      obtain ⟨d, hd, hp⟩ := bag_sub ((Multiset.le_add_left (bag E) (bag K)).trans h) c (hE c (by simp [adds]))
      exact .inl (rup_listed hd hp)
    | del c =>
      obtain ⟨d, hd, hp⟩ := ha.1
      obtain ⟨d', hd', hp'⟩ := bag_sub ((Multiset.le_add_right (bag K) (bag E)).trans h) d hd
      exact ⟨d', hd', hp'.trans hp⟩

/-- All logged clauses, and some more, were given. -/
theorem Chk.grow {F E : Form} {db : Cdb} {s : Stk} (h : Chk F db s) (hE : ∀ c ∈ adds db.cert, c ∈ E) :
    Chk (F ++ E) db s ∧ ∀ c ∈ E, LineOK (listedAll false (F ++ E) db.cert) (.add c) := by
  obtain ⟨a, b⟩ := accepted_grow (K' := F ++ E) h.acc hE (by rw [bag_append])
  have hle := (Multiset.le_add_right _ _).trans b
  have hsub := bag_sub hle
  refine ⟨⟨a, h.foll.live.trans hle, fun l hl => (h.foll.root l hl).imp (fun h => UP.perm hsub h) (fun h => h.perm hsub)⟩, fun c hc => ?_⟩
  obtain ⟨d, hd, hp⟩ := bag_sub ((Multiset.le_add_left _ _).trans b) c hc
  exact .inl (rup_listed hd hp)

/-! ## the invariant -/

/-- The state `db`, `s` with the records `recs` of a solver that was given `F`. -/
structure Glob (F : Form) (db : Cdb) (s : Stk) (recs : List Rec) : Prop where
  rinv : RInv db s
  dom : Dom db s
  cnt : Cnt s
  mod : ∀ D, Cons D → (∀ c ∈ F ++ adds db.cert, Resp D c) → Mod db s D
  cert : Derivation F (adds db.cert)
  ext : ∀ b, SatP db b → SatU s b → Form.sat (extR recs b) F
  imp : ∀ b, SatP db b → SatU s b → SatL db b
  st : StoreOK s recs
  all : recs = [] → ∀ b, SatP db b → SatU s b → Form.sat b (adds db.cert)
  chk : Chk F db s

theorem Glob.chain {F : Form} {db : Cdb} {s : Stk} {recs : List Rec} (h : Glob F db s recs) {new : List Cls} (hc : Chain (MC db s) new) :
    Derivation F (adds db.cert ++ new) := by
  refine h.cert.append fun pre c post e => .inl (rup_of_no_closed fun D hD hr hx => ?_)
  refine hc pre c post e D ⟨h.mod D hD fun d hd => hr d ?_, hD⟩ (fun d hd => hr d (by simp [hd])) hx
  rcases List.mem_append.1 hd with hd | hd <;> simp [hd]

theorem Glob.step {F : Form} {db : Cdb} {s : Stk} {recs : List Rec} (h : Glob F db s recs) {k r : Bool} {db' : Cdb} {s' : Stk}
    (t : Tr k r db s db' s') : Glob F db' s' recs := by
  obtain ⟨new, ha, hc, hm, -⟩ := t.new
  refine ⟨t.rinv, t.dom h.dom, t.sp.cnt h.cnt, fun D hD hr => ?_, by rw [ha]; exact h.chain hc, fun b hp hu => ?_, fun b hp hu => ?_,
    h.st.congr t.sp.elim t.sp.numVars, fun hrec b hp hu => ?_, h.chk.sim (t.sim h.rinv.wf)⟩
  · rw [ha] at hr
    refine hm D ⟨h.mod D hD fun d hd => hr d ?_, hD⟩ fun d hd => hr d (by simp [hd])
    rcases List.mem_append.1 hd with hd | hd <;> simp [hd]
  · exact h.ext b (t.back b hp hu) fun l hl => hu l (t.root l hl)
  · have hu0 : SatU s b := fun l hl => hu l (t.root l hl)
    have hl := h.imp b (t.back b hp hu) hu0
    have hmc := mc_of_asg hl hu0
    have hns := hc.sat hmc
    have := hm _ hmc fun c hc => .of_sat (hns c hc)
    intro i hi
    obtain ⟨y, hy, hn⟩ := this.conf i hi
    exact ⟨y, hy, by simpa using hn⟩
  · have hu0 : SatU s b := fun l hl => hu l (t.root l hl)
    have hb := t.back b hp hu
    have hns := hc.sat (mc_of_asg (h.imp b hb hu0) hu0)
    intro c hcm
    rw [ha] at hcm
    rcases List.mem_append.1 hcm with hcm | hcm
    · exact h.all hrec b hb hu0 c hcm
    · exact hns c hcm

theorem Glob.refuted {F : Form} {db : Cdb} {s : Stk} {recs : List Rec} (h : Glob F db s recs) {db' : Cdb} (hr : Refuted db s db') :
    Certified F s.numVars db'.cert := by
  obtain ⟨⟨new, ha, hc, hm⟩, hb, hw⟩ := hr
  refine ⟨?_, h.chk.bad (hb h.rinv.wf), hw h.dom⟩
  unfold Refutation
  rw [ha]
  refine (h.chain hc).append fun pre c post e => .inl (rup_of_no_closed fun D hD hr _ => ?_)
  rcases pre with _ | ⟨x, pre⟩
  swap
  · simp at e
  simp only [List.append_nil] at hr
  refine hm D ⟨h.mod D hD fun d hd => hr d ?_, hD⟩ fun d hd => hr d (by simp [hd])
  rcases List.mem_append.1 hd with hd | hd <;> simp [hd]

/-- Only the queue of undecided variables changes. -/
theorem Glob.congr {F : Form} {db : Cdb} {s : Stk} {recs : List Rec} (h : Glob F db s recs) {s' : Stk} (hi : Inv db s') (h1 : s'.assign = s.assign)
    (h2 : s'.level = s.level) (h3 : s'.elim = s.elim) (h4 : s'.numVars = s.numVars) (hc : Cnt s')
    (hh : ∀ v, v ∈ s'.heap ∨ v ∈ s'.saved.map Lit.var → 1 ≤ v ∧ v ≤ s.numVars) : Glob F db s' recs := by
  have hr : ∀ l, Root s' l ↔ Root s l := fun l => by unfold Root tr; rw [h1, h2]
  have ho : ∀ v, Okv s' v ↔ Okv s v := fun v => by unfold Okv; rw [h3, h4]
  refine ⟨⟨h.rinv.wf, hi⟩, ⟨fun i l hl => (ho _).2 (h.dom.cl i l hl), fun v hv => (ho v).2 (h.dom.as v (by rw [← h1]; exact hv)), by rw [h4]; exact hh, by rw [h4]; exact h.dom.ct, by rw [h4, h2]; exact h.dom.lv⟩, hc, fun D hD hr' => ?_, h.cert,
    fun b hp hu => h.ext b hp fun l hl => hu l ((hr l).2 hl), fun b hp hu => h.imp b hp fun l hl => hu l ((hr l).2 hl), h.st.congr h3 h4,
    fun e b hp hu => h.all e b hp fun l hl => hu l ((hr l).2 hl), h.chk.stk fun l => (hr l).1⟩
  have := h.mod D hD hr'
  exact ⟨this.cl, this.conf, fun l ha hb => by have hl := (hr l).1 ⟨ha, hb⟩; exact this.root l hl.1 hl.2⟩

/-- The given and the logged clauses are all still visible in the state. -/
def Cov (F : Form) (db : Cdb) (s : Stk) : Prop := ∀ c ∈ F ++ adds db.cert, Covered db s c

theorem Cov.step {F : Form} {db : Cdb} {s : Stk} (h : Cov F db s) {r : Bool} {db' : Cdb} {s' : Stk} (t : Tr true r db s db' s') : Cov F db' s' := by
  obtain ⟨new, ha, -, -, hv⟩ := t.new
  intro c hc
  rw [ha, ← List.append_assoc] at hc
  rcases List.mem_append.1 hc with hc | hc
  · exact t.cov rfl c (h c hc)
  · exact hv rfl c hc

/-- A literal whose negation occurs in no clause may be asserted. -/
theorem Glob.pure {F : Form} {db : Cdb} {s : Stk} (h : Glob F db s []) (hl : s.lim = []) (hcov : Cov F db s) {l : Lit} (hn : s.assign l.var = none)
    (hok : Okv s l.var) (hp : ∀ i, l.neg ∉ (db.clause i).lits) :
    ∃ s', s.assignRootRes (db.log (.add [l])) l = .ok (db.log (.add [l]), s') ∧ Glob F (db.log (.add [l])) s' [] ∧ Cov F (db.log (.add [l])) s' ∧
      s'.lim = [] ∧ SP s s' ∧ (∀ v, s.assign v ≠ none → s'.assign v ≠ none) ∧ (s.saved = [] → s'.saved = []) ∧ s'.assign l.var ≠ none := by
  have hi := h.rinv
  have hw : (db.log (.add [l])).WF := Cdb.wf_lits hi.wf (fun _ => ⟨rfl, rfl⟩) rfl rfl rfl rfl rfl
  have hc0 : s.cancelUntil noLow 0 = s := cancelUntil_noop (by unfold Stk.dl; rw [hl]; simp)
  obtain ⟨i1, i2, i3⟩ := hi.inv.assignRoot noLow l
  obtain ⟨a1, a2, a3, a4, a5, a6⟩ := assignRoot_saved (s := s) (low := noLow) (l := l)
  rw [hc0] at i3 a1 a2
  have hheap : ∀ v ∈ s.heap, v ≠ l.var → v ∈ (s.assignRoot noLow l).1.heap := by
    intro v hv hne
    unfold Stk.assignRoot; rw [hc0]; simp only []; split
    · simp only [makeAsserted, List.mem_filter]; exact ⟨hv, by simpa using hne⟩
    · exact hv
  have hheap3 := assignRoot_heap (s := s) (low := noLow) (l := l)
  rw [hc0] at hheap3
  have hlev := assignRoot_level (s := s) (low := noLow) (l := l)
  unfold Stk.assignRootRes
  generalize hg : s.assignRoot noLow l = g at *
  obtain ⟨s1, b⟩ := g
  simp only [] at i1 i2 i3 a1 a2 a3 a4 a5 a6 hheap hheap3 hlev
  have hroot1 : ∀ m, s1.tr m → s1.level m.var = 0 := fun m hm => i1.level_root i2 (tr_assigned hm)
  have hroot0 : ∀ m, s.tr m → s.level m.var = 0 := fun m hm => hi.inv.level_root hl (tr_assigned hm)
  rcases i3 with ⟨-, hb, ea, et⟩ | ⟨ht, hb, ea, et⟩ | ⟨ht, hb, ea, et⟩
  · subst hb
    have hsl : s1.tr l := by unfold tr; rw [ea]; simp
    have m1 : ∀ m, s.tr m → s1.tr m := fun m hm => tr_upd hn ea hm
    have m3 : ∀ m, s1.tr m → s.tr m ∨ m = l := by
      intro m hm
      unfold tr at hm; rw [ea] at hm
      by_cases e : m.var = l.var
      · right; rw [e, upd_same] at hm; cases m; cases l; simp at hm e; simp [e, hm]
      · left; rw [upd_of_ne _ _ e] at hm; exact hm
    have sp : SP s s1 := SP.push hn ea et a3 a4 a5 a6 a1 hheap
    have hr1 : ∀ m, Root s m → Root s1 m := fun m hm => ⟨m1 m hm.1, hroot1 m (m1 m hm.1)⟩
    refine ⟨s1, rfl, ⟨⟨hw, i1.root_db i2⟩, ⟨fun i x hx => sp.okv.2 (h.dom.cl i x hx), fun v hv => sp.okv.2 ?_, fun v hv => by
        rw [a1] at hv; rw [sp.numVars]; exact h.dom.hp v (hv.imp (hheap3 v) id), fun c hc => by
        rw [adds_log_add, List.mem_append] at hc
        rw [sp.numVars]
        rcases hc with hc | hc
        · exact h.dom.ct c hc
        · simp at hc; subst hc
          exact ⟨by simp, fun x hx => by simp at hx; subst hx; exact ⟨hok.1, hok.2.1⟩⟩, fun v => by rw [sp.numVars]; exact (hlev v).trans (h.dom.lv v)⟩, sp.cnt h.cnt, fun D hD hr => ?_, ?_, ?_, ?_,
      h.st.congr sp.elim sp.numVars, ?_, ?_⟩, ?_, i2, sp, ?_, fun hs => by rw [a1]; exact hs, tr_assigned hsl⟩
    · obtain ⟨x, hx⟩ := tr_of_assign hv
      rcases m3 _ hx with e | e
      · have := tr_assigned e; exact h.dom.as v this
      · have : v = l.var := by rw [← e]
        rw [this]; exact hok
    · rw [adds_log_add] at hr
      have h0 := h.mod D hD fun c hc => hr c (by rcases List.mem_append.1 hc with hc | hc <;> simp [hc])
      refine mod_of (fun i hne => h0.resp hne) fun m hm => ?_
      rcases m3 m hm.1 with e | rfl
      · exact h0.root m e (hroot0 m e)
      · exact (hr [m] (by simp)).1 m (by simp) (by simp)
    · rw [adds_log_add]
      refine h.cert.append fun pre c post e => .inr ⟨l, ?_⟩
      rcases pre with _ | ⟨x, pre⟩
      swap
      · simp at e
      simp only [List.nil_append, List.cons.injEq] at e
      obtain ⟨rfl, -⟩ := e
      rw [List.append_nil]
      refine ⟨by simp, fun d hd hnt hld => rup_of_no_closed fun D hD hr hx => ?_⟩
      have h0 := h.mod D hD hr
      have hx' : ∀ x ∈ d, x ≠ l.neg → D x.neg := fun x hxd hne => hx x (by simp [hxd, hne])
      rcases hcov d hd with ⟨m, hm, hrm⟩ | ⟨i, hne, hsub⟩ | ht
      · have : m ≠ l.neg := by
          rintro rfl; have := tr_assigned hrm.1; rw [Lit.neg_var] at this; exact this hn
        exact hD m (h0.root m hrm.1 hrm.2) (hx' m hm this)
      · obtain ⟨y, hy, hyn⟩ := h0.conf i hne
        exact hyn (hx' y (hsub y hy) (by rintro rfl; exact hp i hy))
      · exact hnt ht
    · intro b hp hu; exact h.ext b hp fun m hm => hu m (hr1 m hm)
    · intro b hp hu; exact h.imp b hp fun m hm => hu m (hr1 m hm)
    · intro _ b hp hu c hc
      rw [adds_log_add] at hc
      rcases List.mem_append.1 hc with hc | hc
      · exact h.all rfl b hp (fun m hm => hu m (hr1 m hm)) c hc
      · simp at hc; subst hc; exact ⟨l, by simp, hu l ⟨hsl, hroot1 l hsl⟩⟩
    · refine h.chk.log hi.wf (.inr ⟨l, rfl, by simp, fun d hd hnt hld => rup_of_no_closed fun D hD hr hx => ?_⟩) fun m hm =>
        (m3 m hm.1).imp (fun e => ⟨e, hroot0 m e⟩) fun e => by rw [e]
      have h0 := (h.chk.foll.mc hi.wf hD hr).1
      have hx' : ∀ x ∈ d, x ≠ l.neg → D x.neg := fun x hxd hne => hx x (by simp [hxd, hne])
      rcases hcov d (mem_listedAll hd) with ⟨m, hm, hrm⟩ | ⟨i, hne, hsub⟩ | ht
      · have : m ≠ l.neg := by
          rintro rfl; have := tr_assigned hrm.1; rw [Lit.neg_var] at this; exact this hn
        exact hD m (h0.root m hrm.1 hrm.2) (hx' m hm this)
      · obtain ⟨y, hy, hyn⟩ := h0.conf i hne
        exact hyn (hx' y (hsub y hy) (by rintro rfl; exact hp i hy))
      · exact hnt ht
    · intro c hc
      rw [adds_log_add, ← List.append_assoc] at hc
      rcases List.mem_append.1 hc with hc | hc
      · exact covered_same (db' := db.log (.add [l])) (fun _ _ => .rfl) hr1 (hcov c hc)
      · simp at hc; subst hc; exact .inl ⟨l, by simp, hsl, hroot1 l hsl⟩
    · intro v hv
      obtain ⟨x, hx⟩ := tr_of_assign hv
      exact tr_assigned (m1 ⟨v, x⟩ hx)
  · exact absurd hn (tr_assigned ht)
  · exact absurd hn (by have := tr_assigned ht; rwa [Lit.neg_var] at this)

end Splr
