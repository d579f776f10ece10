import Verif.Lemmas.ElimVar
/-! The eliminator against the formula. -/
namespace Splr
open Stk

theorem sat_upd_of_ne {b : Asg} {v : Nat} {y : Bool} {l : Lit} (h : l.var ≠ v) : l.sat (upd b v y) ↔ l.sat b := by
  unfold Lit.sat; rw [upd_of_ne _ _ h]

theorem HeapOK.makeEliminated {db : Cdb} {s : Stk} (hi : Inv db s) {v : Nat} (hn : s.assign v = none) (h : HeapOK s) : HeapOK (s.makeEliminated v) := by
  obtain ⟨f1, -, -, -, -, -, f7, -, f9, f10⟩ := makeEliminated_fields hi hn
  intro w hw ha
  unfold Okv at hw; rw [f9, f10] at hw; rw [f1] at ha
  have hne : w ≠ v := by rintro rfl; simp at hw
  rw [upd_of_ne _ _ hne] at hw
  rw [f7]
  rcases h w hw ha with h | h
  · left; unfold Stk.makeEliminated; split
    · exact h
    · simp only [List.mem_filter]; exact ⟨h, by simpa using hne⟩
  · exact .inr h

theorem Cnt.makeEliminated {db : Cdb} {s : Stk} (hi : Inv db s) {v : Nat} (hn : s.assign v = none) (hok : Okv s v) (h : Cnt s) : Cnt (s.makeEliminated v) := by
  obtain ⟨f1, -, -, f4, -, -, -, -, f9, f10⟩ := makeEliminated_fields hi hn
  obtain ⟨A, E, a1, a2, a3, e1, e2, e3⟩ := h
  have hv : v ∉ E := fun hm => by have := ((e3 v).1 hm).1; rw [hok.2.2] at this; simp at this
  have hel : s.elim v = false := hok.2.2
  refine ⟨A, v :: E, a1, ?_, ?_, List.nodup_cons.2 ⟨hv, e1⟩, ?_, ?_⟩
  · unfold Stk.makeEliminated; rw [hel]; exact a2
  · rw [f1, f4]; exact a3
  · unfold Stk.makeEliminated; rw [hel]; simp [e2]
  · intro w
    rw [f9, f10, List.mem_cons, e3]
    by_cases hw : w = v
    · subst hw; simp only [upd_same, true_and, true_or, true_iff]; exact ⟨hok.1, hok.2.1⟩
    · rw [upd_of_ne _ _ hw]; simp [hw]

/-- The clauses of `v` can be satisfied by a value of `v`. -/
theorem elim_value {db db2 : Cdb} {s s2 : Stk} {v : Nat} (hrv : ∀ l, Root s l → l.var ≠ v) (hroot : ∀ l, Root s2 l ↔ Root s l)
    (hkeep : ∀ i, (∀ l ∈ (db.clause i).lits, l.var ≠ v) → db2.clause i = db.clause i)
    (hres : ∀ p n, ⟨v, true⟩ ∈ (db.clause p).lits → ⟨v, false⟩ ∈ (db.clause n).lits → Resolved db v p n db s) :
    ∀ b, SatP db2 b → SatU s2 b → ∃ y, SatP db (upd b v y) ∧ SatU s (upd b v y) := by
  intro b hp hu
  have hu' : ∀ y, SatU s (upd b v y) := fun y l hl => by
    rw [sat_upd_of_ne (hrv l hl)]; exact hu l ((hroot l).2 hl)
  have hfree : ∀ y i, (db.clause i).lits ≠ [] → Prim (db.clause i) → (∀ l ∈ (db.clause i).lits, l.var ≠ v) → Cls.sat (upd b v y) (db.clause i).lits := by
    intro y i hne hpr hnv
    have e := hkeep i hnv
    obtain ⟨l, hl, hs⟩ := hp i (by rw [e]; exact hne) (by rw [e]; exact hpr)
    rw [e] at hl
    exact ⟨l, hl, (sat_upd_of_ne (hnv l hl)).2 hs⟩
  have hsplit : ∀ i, (∀ l ∈ (db.clause i).lits, l.var ≠ v) ∨ ⟨v, true⟩ ∈ (db.clause i).lits ∨ ⟨v, false⟩ ∈ (db.clause i).lits := by
    intro i
    by_cases hx : ∃ l ∈ (db.clause i).lits, l.var = v
    · right
      obtain ⟨⟨w, x⟩, hl, rfl⟩ := hx
      cases x
      · exact .inr hl
      · exact .inl hl
    · left; intro l hl e; exact hx ⟨l, hl, e⟩
  by_cases hbad : ∃ p, ⟨v, true⟩ ∈ (db.clause p).lits ∧ Prim (db.clause p) ∧ ∀ l ∈ (db.clause p).lits, l.var ≠ v → ¬ l.sat b
  · obtain ⟨p, hpm, hpp, hpf⟩ := hbad
    refine ⟨true, fun i hne hpr => ?_, hu' _⟩
    rcases hsplit i with h1 | h1 | h1
    · exact hfree _ i hne hpr h1
    · exact ⟨_, h1, by simp [Lit.sat]⟩
    · rcases hres p i hpm h1 with ⟨l, a, a2, a3⟩ | ⟨l, a, a3⟩ | ⟨j, a1, a2, a3⟩
      · refine ⟨l.neg, a3, (sat_upd_of_ne (by simpa using a2)).2 ?_⟩
        rw [Lit.sat_neg]; exact hpf l a a2
      · have hs : l.sat b := hu l ((hroot l).2 a3)
        obtain ⟨a, a2⟩ := (a l).2 rfl
        rcases a with a | a
        · exact absurd hs (hpf l a a2)
        · exact ⟨l, a, (sat_upd_of_ne a2).2 hs⟩
      · have e := hkeep j fun l hl => ((a2 l).1 hl).2
        obtain ⟨l, hl, hs⟩ := hp j (by rw [e]; exact a1) (by rw [e]; exact a3 hpp hpr)
        rw [e] at hl
        obtain ⟨b1, b2⟩ := (a2 l).1 hl
        rcases b1 with b1 | b1
        · exact absurd hs (hpf l b1 b2)
        · exact ⟨l, b1, (sat_upd_of_ne b2).2 hs⟩
  · refine ⟨false, fun i hne hpr => ?_, hu' _⟩
    rcases hsplit i with h1 | h1 | h1
    · exact hfree _ i hne hpr h1
    · by_contra hns
      refine hbad ⟨i, h1, hpr, fun l hl hv hs => hns ⟨l, hl, (sat_upd_of_ne hv).2 hs⟩⟩
    · exact ⟨_, h1, by simp [Lit.sat]⟩

/-- Removing the clauses of `v` after resolving them. -/
theorem Glob.eliminate {F : Form} {db : Cdb} {s : Stk} {recs : List Rec} (h : Glob F db s recs) (hl : s.lim = []) {v : Nat} (hok : Okv s v)
    (hn : s.assign v = none) {db2 : Cdb} (hw : db2.WF) (hgone : ∀ i, ∀ l ∈ (db2.clause i).lits, l.var ≠ v)
    (hkeep : ∀ i, (∀ l ∈ (db.clause i).lits, l.var ≠ v) → db2.clause i = db.clause i)
    (hsub : ∀ i, (db2.clause i).lits ≠ [] → db2.clause i = db.clause i) (hdels : Cdb.Dels db db2)
    (hres : ∀ p n, ⟨v, true⟩ ∈ (db.clause p).lits → ⟨v, false⟩ ∈ (db.clause n).lits → Resolved db v p n db s)
    {t : Lit} (htv : t.var = v) {recs1 : List Rec}
    (hr1 : ∀ r ∈ recs1, r.1 = t ∧ ∃ i, t ∈ (db.clause i).lits ∧ ∀ x, x ∈ r.2 ↔ x ∈ (db.clause i).lits ∧ x.var ≠ v)
    (hr2 : ∀ i, t ∈ (db.clause i).lits → ∃ r ∈ recs1, ∀ x, x ∈ r.2 ↔ x ∈ (db.clause i).lits ∧ x.var ≠ v) :
    Glob F db2 (s.makeEliminated v) (recs ++ (recs1 ++ [(t.neg, [])])) := by
  have hi := h.rinv
  have hcert : adds db2.cert = adds db.cert := by obtain ⟨ds, e, -⟩ := hdels; rw [e]; simp
  obtain ⟨f1, f2, f3, f4, f5, f6, f7, f8, f9, f10⟩ := makeEliminated_fields hi.inv hn
  have hroot : ∀ l, Root (s.makeEliminated v) l ↔ Root s l := fun l => by unfold Root tr; rw [f1, f2]
  have hrv : ∀ l, Root s l → l.var ≠ v := by rintro l hl rfl; exact tr_assigned hl.1 hn
  have hokv : ∀ w, w ≠ v → Okv s w → Okv (s.makeEliminated v) w := fun w hw hk => by
    unfold Okv; rw [f9, f10, upd_of_ne _ _ hw]; exact hk
  have uniq : ∀ i, ∀ l ∈ (db.clause i).lits, ∀ m ∈ (db.clause i).lits, l.var = m.var → l = m := fun i l hl m hm e =>
    List.inj_on_of_nodup_map (hi.wf.nd i) hl hm e
  have claimA : ∀ b, SatP db2 b → SatU (s.makeEliminated v) b → ∃ y, SatP db (upd b v y) ∧ SatU s (upd b v y) := elim_value hrv hroot hkeep hres
  -- the value given by the records
  have claimC : ∀ b, SatP db2 b → SatU (s.makeEliminated v) b →
      SatP db (extR (recs1 ++ [(t.neg, [])]) b) ∧ SatU s (extR (recs1 ++ [(t.neg, [])]) b) := by
    intro b hp hu
    obtain ⟨y, hy1, hy2⟩ := claimA b hp hu
    have hyL := h.imp _ hy1 hy2
    have e : extR (recs1 ++ [(t.neg, [])]) b = upd b t.var (if (∃ r ∈ recs1, ∀ x ∈ r.2, ¬ x.sat b) then t.pos else !t.pos) := by
      rw [extR_append, ← extR_one (fun r hr => ?_) b]
      · congr 1
      · obtain ⟨a, i, -, c⟩ := hr1 r hr
        exact ⟨a, fun x hx => by rw [htv]; exact ((c x).1 hx).2⟩
    rw [e, htv]
    by_cases hex : ∃ r ∈ recs1, ∀ x ∈ r.2, ¬ x.sat b
    · rw [if_pos hex]
      obtain ⟨r, hr, hf⟩ := hex
      obtain ⟨-, i, hti, hx⟩ := hr1 r hr
      obtain ⟨l, hl, hs⟩ := hyL i (List.ne_nil_of_mem hti)
      by_cases hlv : l.var = v
      · have : l = t := uniq i l hl t hti (by rw [hlv, htv])
        subst this
        have : y = l.pos := by unfold Lit.sat at hs; rw [hlv] at hs; simpa using hs
        rw [← this]; exact ⟨hy1, hy2⟩
      · exact absurd ((sat_upd_of_ne hlv).1 hs) (hf l ((hx l).2 ⟨hl, hlv⟩))
    · rw [if_neg hex]
      refine ⟨fun i hne hpr => ?_, fun l hl => by rw [sat_upd_of_ne (hrv l hl)]; exact hu l ((hroot l).2 hl)⟩
      by_cases hti : t ∈ (db.clause i).lits
      · obtain ⟨r, hr, hx⟩ := hr2 i hti
        by_contra hns
        refine hex ⟨r, hr, fun x hxr hs => hns ⟨x, ((hx x).1 hxr).1, (sat_upd_of_ne ((hx x).1 hxr).2).2 hs⟩⟩
      · by_cases htn : t.neg ∈ (db.clause i).lits
        · exact ⟨_, htn, by unfold Lit.sat; simp [htv]⟩
        · have hnv : ∀ l ∈ (db.clause i).lits, l.var ≠ v := by
            intro l hl hv
            rcases Lit.eq_or_eq_neg_of_var (hv.trans htv.symm) with rfl | rfl
            · exact hti hl
            · exact htn hl
          have e := hkeep i hnv
          obtain ⟨l, hl, hs⟩ := hp i (by rw [e]; exact hne) (by rw [e]; exact hpr)
          rw [e] at hl
          exact ⟨l, hl, (sat_upd_of_ne (hnv l hl)).2 hs⟩
  refine ⟨⟨hw, (hi.inv.makeEliminated hn).root_db (by rw [f5]; exact hl)⟩, ⟨?_, ?_, ?_, by rw [hcert, f10]; exact h.dom.ct, by rw [f10, f2]; exact h.dom.lv⟩, h.cnt.makeEliminated hi.inv hn hok, ?_, by rw [hcert]; exact h.cert, ?_, ?_, ?_, by simp, (h.chk.dels hdels).stk fun l => (hroot l).1⟩
  · intro i l hl
    have e := hsub i (List.ne_nil_of_mem hl)
    exact hokv _ (hgone i l hl) (h.dom.cl i l (by rw [← e]; exact hl))
  · intro w hw
    rw [f1] at hw
    exact hokv _ (by rintro rfl; exact hw hn) (h.dom.as w hw)
  · intro w hw
    rw [f7] at hw; rw [f10]
    refine h.dom.hp w (hw.imp (fun h => ?_) id)
    unfold Stk.makeEliminated at h; split at h
    · exact h
    · exact (List.mem_filter.1 h).1
  · intro D hD hr
    rw [hcert] at hr
    have h0 := h.mod D hD hr
    refine mod_of (fun i hne => ?_) fun l hl => by have := (hroot l).1 hl; exact h0.root l this.1 this.2
    have e := hsub i hne
    rw [e] at hne ⊢; exact h0.resp hne
  · intro b hp hu
    obtain ⟨c1, c2⟩ := claimC b hp hu
    rw [extR_append]
    exact h.ext _ c1 c2
  · intro b hp hu i hne
    obtain ⟨y, hy1, hy2⟩ := claimA b hp hu
    have e := hsub i hne
    obtain ⟨l, hl, hs⟩ := h.imp _ hy1 hy2 i (by rw [← e]; exact hne)
    rw [e]
    exact ⟨l, hl, (sat_upd_of_ne (hgone i l (by rw [e]; exact hl))).1 hs⟩
  · refine ⟨fun w hw => ?_, fun r hr => ?_, ?_⟩
    · rw [f9] at hw
      by_cases e : w = v
      · exact ⟨(t.neg, []), by simp, rfl, by simp [htv, e]⟩
      · rw [upd_of_ne _ _ e] at hw
        obtain ⟨r, a, b⟩ := h.st.cover w hw
        exact ⟨r, by simp [a], b⟩
    · rw [f9]
      rcases List.mem_append.1 hr with hr | hr
      · simp only [upd_apply]; split
        · rfl
        · exact h.st.tgt r hr
      · rcases List.mem_append.1 hr with hr | hr
        · rw [(hr1 r hr).1, htv]; simp
        · simp at hr; subst hr; simp [htv]
    · intro pre r post e x hx
      rw [f9, f10]
      rcases List.append_eq_append_iff.1 e with ⟨a', e1, e2⟩ | ⟨c', e1, e2⟩
      · -- a new record
        have hrm : r ∈ recs1 ++ [(t.neg, [])] := by rw [e2]; simp
        rcases List.mem_append.1 hrm with hrm | hrm
        · obtain ⟨-, i, -, hm⟩ := hr1 r hrm
          obtain ⟨m1, m2⟩ := (hm x).1 hx
          obtain ⟨o1, o2, o3⟩ := h.dom.cl i x m1
          exact ⟨o1, o2, .inl (by rw [upd_of_ne _ _ m2]; exact o3)⟩
        · simp at hrm; subst hrm; simp at hx
      · rcases c' with _ | ⟨r', c'⟩
        · simp at e1 e2
          have hrm : r ∈ recs1 ++ [(t.neg, [])] := by rw [← e2]; simp
          rcases List.mem_append.1 hrm with hrm | hrm
          · obtain ⟨-, i, -, hm⟩ := hr1 r hrm
            obtain ⟨m1, m2⟩ := (hm x).1 hx
            obtain ⟨o1, o2, o3⟩ := h.dom.cl i x m1
            exact ⟨o1, o2, .inl (by rw [upd_of_ne _ _ m2]; exact o3)⟩
          · simp at hrm; subst hrm; simp at hx
        · simp at e2; obtain ⟨rfl, e2⟩ := e2
          obtain ⟨o1, o2, o3⟩ := h.st.ord pre r c' e1 x hx
          refine ⟨o1, o2, ?_⟩
          by_cases ev : x.var = v
          · right; exact ⟨(t.neg, []), by rw [e2]; simp, rfl, by simp [htv, ev]⟩
          · rcases o3 with o3 | ⟨r', a, b⟩
            · left; rw [upd_of_ne _ _ ev]; exact o3
            · right; exact ⟨r', by rw [e2]; simp [a], b⟩

/-! ## the run of the eliminator -/

/-- The state inside the eliminator, entered with the stack `s0`, the records `recs` and the store `base` of the eliminator. -/
def EOK (F : Form) (s0 : Stk) (recs : List Rec) (y : DS × El) : Prop :=
  ∃ recs', Glob F y.1.1 y.1.2 (recs ++ recs') ∧ y.2.lits = encode recs' ∧ y.1.2.lim = [] ∧ OccInv y.2 y.1.1 y.1.2 ∧
    (HeapOK s0 → HeapOK y.1.2) ∧ (s0.saved = [] → y.1.2.saved = []) ∧ y.1.2.numVars = s0.numVars

/-- The outcome of a function of the eliminator. -/
def EG (F : Form) (s0 : Stk) (recs : List Rec) : Res (DS × El) → Prop
  | .ok y => EOK F s0 recs y
  | .unsat db _ => Certified F s0.numVars db.cert
  | _ => True

theorem EG.bind {F : Form} {s0 : Stk} {recs : List Rec} {x : Res (DS × El)} {f : DS × El → Res (DS × El)} (h : EG F s0 recs x)
    (hf : ∀ y, EOK F s0 recs y → EG F s0 recs (f y)) : EG F s0 recs (x.bind f) := by
  cases x with
  | ok y => exact hf y h
  | unsat db s => exact h
  | _ => trivial

theorem EOK.of_rg {F : Form} {s0 : Stk} {recs : List Rec} {y : DS × El} (h : EOK F s0 recs y) {x : Res (DS × El)}
    (hx : RG false true y.1.1 y.1.2 (·.1) (Kept y.2 y.1.2) x) : EG F s0 recs x := by
  obtain ⟨recs', g, hb, -, -, hh, hs, hnv⟩ := h
  cases x with
  | ok z =>
    obtain ⟨t, k⟩ := hx
    exact ⟨recs', g.step t, by rw [k.lits, hb], k.lim, k.occ, fun h0 => t.sp.heap (hh h0), fun h0 => t.sv rfl (hs h0), t.sp.numVars.trans hnv⟩
  | unsat db s =>
    have := g.refuted hx
    rw [hnv] at this
    exact this
  | _ => trivial

/-- What `eliminate_var` does: `u` is the state after resolving, `z` the one after removing the clauses of `v`. -/
structure Elimd (v : Nat) (db : Cdb) (s : Stk) (e : El) (pos neg : List Nat) (u z : DS × El) : Prop where
  hp : ∀ i, i ∈ pos ↔ ⟨v, true⟩ ∈ (db.clause i).lits
  hng : ∀ i, i ∈ neg ↔ ⟨v, false⟩ ∈ (db.clause i).lits
  t : Tr false true db s u.1.1 u.1.2
  hk : ∃ e0, RKept db v e0 u
  lits : u.2.lits = e.lits ++ elimClauses v (pos.map fun c => (db.clause c).lits) (neg.map fun c => (db.clause c).lits)
  hd : DroppedAll (pos ++ neg) u z
  hgone : ∀ i, ∀ l ∈ (z.1.1.clause i).lits, l.var ≠ v
  hkeep : ∀ i, (∀ l ∈ (u.1.1.clause i).lits, l.var ≠ v) → z.1.1.clause i = u.1.1.clause i
  hsub : ∀ i, (z.1.1.clause i).lits ≠ [] → z.1.1.clause i = u.1.1.clause i
  hres : ∀ p n, ⟨v, true⟩ ∈ (u.1.1.clause p).lits → ⟨v, false⟩ ∈ (u.1.1.clause n).lits → Resolved u.1.1 v p n u.1.1 u.1.2

theorem eliminateVar_shape {evo v : Nat} {db : Cdb} {s : Stk} {e : El} (hi : RInv db s) (hdm : Dom db s) (hl : s.lim = []) (ho : OccInv e db s)
    (hn : s.assign v = none) (hab : e.aborted v = false) :
    match eliminateVar evo v (db, s) e with
    | .ok w => ∃ pos neg u z, Elimd v db s e pos neg u z ∧ w = ((z.1.1, z.1.2.makeEliminated v), z.2.clearVar v)
    | .unsat db' _ => Refuted db s db'
    | _ => True := by
  unfold eliminateVar
  simp only []
  set pos := (e.pos v).filter fun c => decide (⟨v, true⟩ ∈ (db.clause c).lits) with hpos
  set neg := (e.neg v).filter fun c => decide (⟨v, false⟩ ∈ (db.clause c).lits) with hneg
  set pl := pos.map fun c => (db.clause c).lits with hpl
  set nl := neg.map fun c => (db.clause c).lits with hnl
  set e1 : El := { e with pos := upd e.pos v pos, neg := upd e.neg v neg, lits := e.lits ++ elimClauses v pl nl } with he1
  have hp : ∀ i, i ∈ pos ↔ ⟨v, true⟩ ∈ (db.clause i).lits := by
    intro i; rw [hpos, List.mem_filter]
    refine ⟨fun h => by simpa using h.2, fun h => ⟨?_, by simpa using h⟩⟩
    have := ho i ⟨v, true⟩ h hab
    simpa [El.occ] using this
  have hng : ∀ i, i ∈ neg ↔ ⟨v, false⟩ ∈ (db.clause i).lits := by
    intro i; rw [hneg, List.mem_filter]
    refine ⟨fun h => by simpa using h.2, fun h => ⟨?_, by simpa using h⟩⟩
    have := ho i ⟨v, false⟩ h hab
    simpa [El.occ] using this
  have ho1 : OccInv e1 db s := by
    intro i l hm hab'
    have h0 := ho i l hm hab'
    obtain ⟨w, b⟩ := l
    by_cases ew : w = v
    · subst ew
      cases b
      · have : i ∈ neg := (hng i).2 hm
        simpa [El.occ, he1] using this
      · have : i ∈ pos := (hp i).2 hm
        simpa [El.occ, he1] using this
    · simp only [El.occ, he1] at h0 ⊢
      rw [upd_of_ne _ _ ew, upd_of_ne _ _ ew]; exact h0
  have hk0 : RKept db v e1 ((db, s), e1) := ⟨hl, ho1, rfl, fun _ _ => ⟨rfl, rfl⟩, fun _ _ h _ => h, hn, fun _ _ => .inl rfl⟩
  have hra := rg_resolveAll (r := true) (evo := evo) (ps := pos.flatMap fun p => neg.map fun n => (p, n)) hi.wf (y := ((db, s), e1)) hi hdm hk0 (by
    intro q hq
    obtain ⟨p, hpm, hq⟩ := List.mem_flatMap.1 hq
    obtain ⟨n, hnm, rfl⟩ := List.mem_map.1 hq
    exact ⟨(hp p).1 hpm, (hng n).1 hnm⟩)
  cases hr : resolveAll evo v (pos.flatMap fun p => neg.map fun n => (p, n)) ((db, s), e1) with
  | unsat db' s' => rw [hr] at hra; exact hra
  | err => trivial
  | panic => trivial
  | fuel => trivial
  | ok u =>
    rw [hr] at hra
    obtain ⟨t, hk, -, hres⟩ := hra
    simp only [] at t
    simp only [Res.bind]
    obtain ⟨z, hz, hd⟩ := dropAll_spec (cids := pos ++ neg) t.rinv.wf hk.occ
    rw [hz]
    simp only []
    -- the clauses of `v` now are those of the beginning
    have hsame : ∀ i, (∃ l ∈ (u.1.1.clause i).lits, l.var = v) → (u.1.1.clause i).lits = (db.clause i).lits := by
      rintro i ⟨l, hm, hv⟩
      exact (hk.keep i (List.ne_nil_of_mem (hk.noV i l hm hv))).1
    have hin : ∀ i, (∃ l ∈ (u.1.1.clause i).lits, l.var = v) → i ∈ pos ++ neg := by
      rintro i ⟨⟨w, b⟩, hm, rfl⟩
      have := hk.noV i _ hm rfl
      cases b
      · exact List.mem_append_right _ ((hng i).2 this)
      · exact List.mem_append_left _ ((hp i).2 this)
    have hgone : ∀ i, ∀ l ∈ (z.1.1.clause i).lits, l.var ≠ v := by
      intro i l hm hv
      have h1 := hin i ⟨l, hd.sub i l hm, hv⟩
      rw [hd.gone i h1] at hm; simp at hm
    have hposl : ∀ i ∈ pos, (u.1.1.clause i).lits = (db.clause i).lits ∧ (u.1.1.clause i).learnt = (db.clause i).learnt := fun i him =>
      hk.keep i (List.ne_nil_of_mem ((hp i).1 him))
    have hnegl : ∀ i ∈ neg, (u.1.1.clause i).lits = (db.clause i).lits ∧ (u.1.1.clause i).learnt = (db.clause i).learnt := fun i him =>
      hk.keep i (List.ne_nil_of_mem ((hng i).1 him))
    have hkeep : ∀ i, (∀ l ∈ (u.1.1.clause i).lits, l.var ≠ v) → z.1.1.clause i = u.1.1.clause i := by
      intro i hnv
      refine hd.keep i fun hm => ?_
      rcases List.mem_append.1 hm with hm | hm
      · exact hnv ⟨v, true⟩ (by rw [(hposl i hm).1]; exact (hp i).1 hm) rfl
      · exact hnv ⟨v, false⟩ (by rw [(hnegl i hm).1]; exact (hng i).1 hm) rfl
    have hsub : ∀ i, (z.1.1.clause i).lits ≠ [] → z.1.1.clause i = u.1.1.clause i := by
      intro i hne
      exact hd.keep i fun hm => hne (hd.gone i hm)
    have hres1 : ∀ p n, ⟨v, true⟩ ∈ (u.1.1.clause p).lits → ⟨v, false⟩ ∈ (u.1.1.clause n).lits → Resolved u.1.1 v p n u.1.1 u.1.2 := by
      intro p n h1 h2
      have p1 := (hp p).2 (hk.noV p _ h1 rfl)
      have n1 := (hng n).2 (hk.noV n _ h2 rfl)
      have := hres (p, n) (List.mem_flatMap.2 ⟨p, p1, List.mem_map.2 ⟨n, n1, rfl⟩⟩)
      unfold Resolved Prim at this ⊢
      rw [(hposl p p1).1, (hposl p p1).2, (hnegl n n1).1, (hnegl n n1).2]
      exact this
    exact ⟨pos, neg, u, z, ⟨hp, hng, t, ⟨_, hk⟩, hk.lits, hd, hgone, hkeep, hsub, hres1⟩, rfl⟩

theorem eliminateVar_spec {F : Form} {s0 : Stk} {recs : List Rec} {evo v : Nat} {y : DS × El} (h : EOK F s0 recs y)
    (hok : Okv y.1.2 v) (hn : y.1.2.assign v = none) (hab : y.2.aborted v = false) : EG F s0 recs (eliminateVar evo v y.1 y.2) := by
  obtain ⟨⟨db, s⟩, e⟩ := y
  obtain ⟨recs', g, hb, hl, ho, hh, hs, hnv⟩ := h
  simp only [] at g hb hl ho hh hs hnv hok hn hab
  have hi := g.rinv
  have hshape := eliminateVar_shape (evo := evo) hi g.dom hl ho hn hab
  simp only []
  cases hr : eliminateVar evo v (db, s) e with
  | unsat db' s' => 
    rw [hr] at hshape
    have := g.refuted hshape
    rw [hnv] at this
    exact this
  | err => trivial
  | panic => trivial
  | fuel => trivial
  | ok w =>
    rw [hr] at hshape
    obtain ⟨pos, neg, u, z, ⟨hp, hng, t, ⟨e0, hk⟩, hlits, hd, hgone, hkeep, hsub, hres1⟩, rfl⟩ := hshape
    have g1 := g.step t
    have hok1 : Okv u.1.2 v := t.sp.okv.2 hok
    have hvun : u.1.2.assign v = none := hk.un
    set pl := pos.map fun c => (db.clause c).lits with hpl
    set nl := neg.map fun c => (db.clause c).lits with hnl
    have recOf : ∀ (x : Bool) (cs : List Nat), (∀ i, i ∈ cs ↔ ⟨v, x⟩ ∈ (db.clause i).lits) →
        ∃ recs1 : List Rec, (cs.map fun c => (db.clause c).lits).flatMap (elimClause v) = encode recs1 ∧
        (∀ r ∈ recs1, r.1 = ⟨v, x⟩ ∧ ∃ i, ⟨v, x⟩ ∈ (u.1.1.clause i).lits ∧ ∀ l, l ∈ r.2 ↔ l ∈ (u.1.1.clause i).lits ∧ l.var ≠ v) ∧
        ∀ i, ⟨v, x⟩ ∈ (u.1.1.clause i).lits → ∃ r ∈ recs1, ∀ l, l ∈ r.2 ↔ l ∈ (u.1.1.clause i).lits ∧ l.var ≠ v := by
      intro x cs hcs
      obtain ⟨recs1, r1, r2, r3⟩ := elimRecs (v := v) (t := ⟨v, x⟩) rfl (cs := cs.map fun c => (db.clause c).lits) (by
        intro c hc
        obtain ⟨i, hi1, rfl⟩ := List.mem_map.1 hc
        exact ⟨(hcs i).1 hi1, hi.wf.nd i⟩)
      refine ⟨recs1, r1, fun r hr => ?_, fun i him => ?_⟩
      · obtain ⟨a, c, hc, b⟩ := r2 r hr
        obtain ⟨i, hi1, rfl⟩ := List.mem_map.1 hc
        have hm := (hcs i).1 hi1
        have hkl := (hk.keep i (List.ne_nil_of_mem hm)).1
        exact ⟨a, i, by rw [hkl]; exact hm, by rw [hkl]; exact b⟩
      · have hm := hk.noV i _ him rfl
        obtain ⟨r, a, b⟩ := r3 _ (List.mem_map.2 ⟨i, (hcs i).2 hm, rfl⟩)
        exact ⟨r, a, by rw [(hk.keep i (List.ne_nil_of_mem hm)).1]; exact b⟩
    -- the records
    obtain ⟨rs, hrs, hrG⟩ : ∃ rs : List Rec, elimClauses v pl nl = encode rs ∧ Glob F z.1.1 (u.1.2.makeEliminated v) ((recs ++ recs') ++ rs) := by
      unfold elimClauses
      split
      · obtain ⟨recs1, r1, r2, r3⟩ := recOf false neg hng
        refine ⟨recs1 ++ [(⟨v, true⟩, [])], by rw [encode_append, ← r1]; rfl, ?_⟩
        exact g1.eliminate hk.lim hok1 hvun hd.wf hgone hkeep hsub hd.dels hres1 (t := ⟨v, false⟩) rfl r2 r3
      · obtain ⟨recs1, r1, r2, r3⟩ := recOf true pos hp
        refine ⟨recs1 ++ [(⟨v, false⟩, [])], by rw [encode_append, ← r1]; rfl, ?_⟩
        exact g1.eliminate hk.lim hok1 hvun hd.wf hgone hkeep hsub hd.dels hres1 (t := ⟨v, true⟩) rfl r2 r3
    obtain ⟨f1, f2, f3, f4, f5, f6, f7, f8, f9, f10⟩ := makeEliminated_fields g1.rinv.inv hvun
    refine ⟨recs' ++ rs, ?_, ?_, ?_, ?_, ?_, ?_, ?_⟩
    · show Glob F z.1.1 (z.1.2.makeEliminated v) _
      rw [hd.stk, ← List.append_assoc]; exact hrG
    · show z.2.lits = _
      rw [hd.lits, hlits, encode_append, ← hrs, ← hb]
    · show (z.1.2.makeEliminated v).lim = []
      rw [hd.stk, f5]; exact hk.lim
    · intro i l hm hab'
      have hm : l ∈ (z.1.1.clause i).lits := hm
      have hv := hgone i l hm
      have hab' : upd z.2.aborted v false l.var = false := hab'
      rw [upd_of_ne _ _ hv] at hab'
      have := hd.occ i l hm hab'
      unfold El.occ El.clearVar at *
      simp only [upd_of_ne _ _ hv]; exact this
    · intro h0
      show HeapOK (z.1.2.makeEliminated v)
      rw [hd.stk]
      exact (t.sp.heap (hh h0)).makeEliminated g1.rinv.inv hvun
    · intro h0
      show (z.1.2.makeEliminated v).saved = []
      rw [hd.stk, f7]; exact t.sv rfl (hs h0)
    · show (z.1.2.makeEliminated v).numVars = _
      rw [hd.stk, f10]; exact t.sp.numVars.trans hnv

theorem runCmd_spec {F : Form} {s0 : Stk} {recs : List Rec} {evo : Nat} {y : DS × El} (h : EOK F s0 recs y) (c : ECmd) :
    EG F s0 recs (runCmd evo y c) := by
  have h0 := h
  obtain ⟨recs', g, hb, hl, ho, hh, hs, hnv⟩ := h0
  cases c with
  | subsume cid did =>
    unfold runCmd
    simp only []
    split
    · exact h
    · rename_i hc
      simp only [not_or, Cl.dead, List.isEmpty_iff] at hc
      exact h.of_rg (rg_trySubsume g.rinv hl ho hc.1 hc.2.1 hc.2.2)
  | lifted l did =>
    unfold runCmd
    simp only []
    split
    · exact h
    · rename_i hc
      simp only [not_or, not_not] at hc
      exact h.of_rg (rg_tryLifted g.rinv hl ho hc.1)
  | elimVar v =>
    unfold runCmd
    simp only []
    split
    · exact h
    · rename_i hc
      simp only [not_or, not_not, Bool.not_eq_true, not_lt] at hc
      exact eliminateVar_spec h ⟨by omega, hc.2.1, hc.2.2.1⟩ hc.2.2.2.1 hc.2.2.2.2
  | propagate => exact h.of_rg (rg_propCmd g.rinv hl ho)
  | retain v sift => exact ⟨recs', g, hb, hl, ho.keep v sift, hh, hs, hnv⟩

theorem runCmds_spec {F : Form} {s0 : Stk} {recs : List Rec} {evo : Nat} : ∀ {cs : List ECmd} {y : DS × El}, EOK F s0 recs y →
    EG F s0 recs (runCmds evo cs y)
  | [], _, h => h
  | c :: cs, _, h => (runCmd_spec h c).bind fun _ hz => runCmds_spec hz

theorem flags_unlinkAll (db : Cdb) : Cdb.Flags db db.unlinkAll :=
  ⟨fun _ => rfl, fun _ h => h, rfl, fun w => Cdb.wf_lits w (fun _ => ⟨rfl, rfl⟩) rfl rfl rfl rfl rfl⟩

/-- `simplify` of a prepared eliminator. -/
def SG (F : Form) (s0 : Stk) (recs : List Rec) : Res (DS × El) → Prop
  | .ok y => ∃ recs', Glob F y.1.1 y.1.2 (recs ++ recs') ∧ y.2.lits = encode recs' ∧ y.1.2.lim = [] ∧ Unl y.1.1 ∧
      (HeapOK s0 → HeapOK y.1.2) ∧ (s0.saved = [] → y.1.2.saved = []) ∧ y.1.2.numVars = s0.numVars
  | .unsat db _ => Certified F s0.numVars db.cert
  | _ => True

theorem simplify_spec {F : Form} {s0 : Stk} {recs : List Rec} {evo : Nat} {cmds : List ECmd} {oom : Bool} {y : DS × El} (h : EOK F s0 recs y) :
    SG F s0 recs (simplify true evo cmds oom y) := by
  unfold simplify
  rw [if_pos rfl]
  have := runCmds_spec (evo := evo) (cs := cmds ++ [.propagate]) h
  cases hr : runCmds evo (cmds ++ [.propagate]) y with
  | ok z =>
    rw [hr] at this
    simp only [Res.bind]
    split
    · trivial
    obtain ⟨recs', g, hb, hl, ho, hh, hs, hnv⟩ := this
    refine ⟨recs', g.step (Tr.flags (r := true) g.rinv hl (flags_unlinkAll _)), hb, hl, fun _ _ => rfl, hh, hs, hnv⟩
  | unsat db s => rw [hr] at this; exact this
  | _ => trivial

end Splr
