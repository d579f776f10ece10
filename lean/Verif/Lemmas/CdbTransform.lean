import Verif.Lemmas.CdbOps
/-! `transform_by_elimination`, `transform_by_simplification` and the watch moves preserve the invariant. -/
namespace Splr
namespace Cdb

theorem nodup_of_map_var {c : Cls} (h : (c.map Lit.var).Nodup) : c.Nodup := List.Nodup.of_map _ h

theorem filter_ne_self {p : Lit} {c : Cls} (h : p ∉ c) : c.filter (· ≠ p) = c := by
  rw [List.filter_eq_self]; intro a ha; simp; rintro rfl; exact h ha

theorem nodup_filter_var {c : Cls} (h : (c.map Lit.var).Nodup) (q : Lit → Bool) : ((c.filter q).map Lit.var).Nodup :=
  List.Nodup.sublist (List.Sublist.map _ List.filter_sublist) h

theorem length_filter_ne {p : Lit} {c : Cls} (h : c.Nodup) (hp : p ∈ c) : (c.filter (· ≠ p)).length + 1 = c.length := by
  have e : c.filter (· ≠ p) = c.erase p := by
    rw [h.erase_eq_filter]; apply List.filter_congr; intro x _; simp [bne, Bool.beq_eq_decide_eq]
  rw [e, List.length_erase_of_mem hp]
  have := List.length_pos_of_mem hp; omega

/-- the outcome of `transform_by_elimination` -/
inductive ElimOut (db : Cdb) (cid : Nat) (p : Lit) (db' : Cdb) : RefClause → Prop
  | unit (a : Lit) (h : (db.clause cid).lits = [a, p] ∨ (db.clause cid).lits = [p, a])
      (h' : (db'.clause cid).lits = [a, p]) (hc : db'.cert = db.cert) : ElimOut db cid p db' (.unit a)
  | registered (reg : Nat) (a b : Lit) (h : (db.clause cid).lits.filter (· ≠ p) = [a, b])
      (hr : (db.clause reg).lits = [a, b] ∨ (db.clause reg).lits = [b, a])
      (h' : (db'.clause cid).lits = (db.clause cid).lits) (hne : 3 ≤ (db.clause cid).lits.length)
      (hc : db'.cert = db.cert) : ElimOut db cid p db' (.registered reg)
  | clause (h : 3 ≤ (db.clause cid).lits.length) (h' : (db'.clause cid).lits = (db.clause cid).lits.filter (· ≠ p))
      (hc : db'.cert = db.cert ++ [.add ((db.clause cid).lits.filter (· ≠ p)), .del (db.clause cid).lits]) :
      ElimOut db cid p db' (.clause cid)

/-- swapping the literals of a binary clause, or writing the same literals again -/
theorem wf_same {db : Cdb} (h : db.WF) {cid : Nat} {c : Cl} (hsf : 2 ≤ c.searchFrom) (hne : (db.clause cid).lits ≠ [])
    (hc : c.lits = (db.clause cid).lits ∨ ∃ a b tl, (db.clause cid).lits = a :: b :: tl ∧ c.lits = b :: a :: tl) :
    (db.setC cid c).WF := by
  have hne' : c.lits ≠ [] := by
    rcases hc with hc | ⟨a, b, tl, -, hc⟩
    · rw [hc]; exact hne
    · rw [hc]; simp
  have hcid : (db.setC cid c).clause cid = c := by simp [setC]
  refine h.of_frame (cid := cid) ⟨?_, ?_, ?_, ?_⟩ ?_ ?_ ?_ ?_ h.nw h.nb ?_ ?_ ?_
  · intro i hi; simp only [setC, upd_of_ne _ _ hi]; exact ⟨trivial, h.sf i⟩
  · intros; rfl
  · intros; rfl
  · intros; rfl
  · exact arena_modify h hne rfl rfl (c := c) hne' rfl
  · intro _; rw [hcid]
    rcases hc with hc | ⟨a, b, tl, -, hc⟩
    · rw [hc]; exact h.len2 cid hne
    · rw [hc]; simp
  · rw [hcid]
    rcases hc with hc | ⟨a, b, tl, h0, hc⟩
    · rw [hc]; exact h.nd cid
    · have := h.nd cid; rw [h0] at this; rw [hc]
      exact ((List.Perm.swap a b tl).map Lit.var).nodup_iff.2 this
  · rw [hcid]; exact hsf
  · intro l; rw [hcid]
    show (∃ b, (cid, b) ∈ db.watch l) ↔ _
    rw [h.wIff]
    rcases hc with hc | ⟨a, b, tl, h0, hc⟩
    · rw [hc]
    · rw [hc, h0, getElem01, getElem01]; tauto
  · intro x y; rw [hcid]
    show (y, cid) ∈ db.blist x ↔ _
    rw [h.bIff]
    rcases hc with hc | ⟨a, b, tl, h0, hc⟩
    · rw [hc]
    · rw [hc, h0]; simp; tauto
  · intro k; rw [hcid]
    show db.bhash k = _ ↔ _
    rw [h.hIff]
    rcases hc with hc | ⟨a, b, tl, h0, hc⟩
    · rw [hc]
    · rw [hc, h0]
      constructor
      · rintro ⟨x, y, e, rfl⟩; simp at e; exact ⟨b, a, by simp [e.2.2], by rw [← e.1, ← e.2.1, bkey_comm]⟩
      · rintro ⟨x, y, e, rfl⟩; simp at e; exact ⟨a, b, by simp [e.2.2], by rw [← e.1, ← e.2.1, bkey_comm]⟩

/-- what a correct move of the watches of `cid` to `n0`, `n1` does -/
structure Moved (db db' : Cdb) (cid : Nat) (n0 n1 : Lit) : Prop where
  rest : db'.clause = db.clause ∧ db'.len = db.len ∧ db'.free = db.free ∧ db'.blist = db.blist ∧ db'.bhash = db.bhash ∧
    db'.cert = db.cert
  nw : db'.NodupW
  wo : ∀ l i x, i ≠ cid → ((i, x) ∈ db'.watch l ↔ (i, x) ∈ db.watch l)
  wc : ∀ l, (∃ x, (cid, x) ∈ db'.watch l) ↔ l = n0.neg ∨ l = n1.neg

theorem rewatchElim_spec {db : Cdb} (h : db.WF) {cid : Nat} {p o0 o1 t0 n0 n1 : Lit} {tl nt : Cls}
    (hl : (db.clause cid).lits = o0 :: o1 :: t0 :: tl)
    (hf : (o0 :: o1 :: t0 :: tl).filter (· ≠ p) = n0 :: n1 :: nt) :
    ∃ db', db.rewatchElim cid p o0 o1 n0 n1 = some db' ∧ Moved db db' cid n0 n1 := by
  have hnd := h.nd cid
  rw [hl] at hnd
  have hnl := nodup_of_map_var hnd
  have hw := fun l => h.wIff l cid
  simp only [hl, getElem01] at hw
  have hnn : n0 ≠ n1 := by
    have := hnl.filter (fun x => decide (x ≠ p)); rw [hf] at this; simp at this; exact this.1.1
  have hp0 : n0 ≠ p ∧ n1 ≠ p := by
    have : ∀ x ∈ n0 :: n1 :: nt, x ≠ p := by rw [← hf]; intro x hx; simpa using (List.mem_filter.1 hx).2
    exact ⟨this n0 (by simp), this n1 (by simp)⟩
  -- `n0` is watched, `p` is watched, `n1` is not
  have key : ∀ (o : Lit), (∀ l, (∃ b, (cid, b) ∈ db.watch l) ↔ l = p.neg ∨ l = o.neg) → o = n0 →
      Moved db ((db.rmW p.neg cid).insW n1.neg cid n0) cid n0 n1 := by
    rintro o hwo rfl
    refine ⟨⟨rfl, rfl, rfl, rfl, rfl, rfl⟩, ?_, ?_, ?_⟩
    · refine nodup_insW (nodup_rmW h.nw _ _) _ _ _ ?_
      intro x hx; rw [mem_rmW h.nw] at hx
      rcases (hwo n1.neg).1 ⟨x, hx.1⟩ with e | e
      · exact hp0.2 (Lit.neg_inj.1 e)
      · exact hnn (Lit.neg_inj.1 e).symm
    · intro l i x hi; rw [mem_insW, mem_rmW h.nw]; simp [hi]
    · intro l; simp only [mem_insW, mem_rmW h.nw]
      constructor
      · rintro ⟨x, ⟨hx, hne⟩ | ⟨rfl, -⟩⟩
        · rcases (hwo l).1 ⟨x, hx⟩ with rfl | rfl
          · simp at hne
          · left; rfl
        · right; rfl
      · rintro (rfl | rfl)
        · obtain ⟨x, hx⟩ := (hwo o.neg).2 (.inr rfl)
          exact ⟨x, .inl ⟨hx, fun hh => hp0.1 (Lit.neg_inj.1 hh.1)⟩⟩
        · exact ⟨o, .inr ⟨rfl, rfl⟩⟩
  unfold rewatchElim
  by_cases e0 : p = o0
  · subst e0
    have hf' : o1 :: t0 :: tl = n0 :: n1 :: nt := by
      rw [← hf, List.filter_cons_of_neg (by simp), filter_ne_self (List.nodup_cons.1 hnl).1]
    have hn0 : o1 = n0 := by simp at hf'; exact hf'.1
    simp only [if_true, hn0]
    exact ⟨_, rfl, key o1 (fun l => by rw [hw]; simp) hn0⟩
  · simp only [if_neg e0]
    by_cases e1 : p = o1
    · subst e1
      have hf' : o0 :: t0 :: tl = n0 :: n1 :: nt := by
        rw [← hf, List.filter_cons_of_pos (by simpa using Ne.symm e0), List.filter_cons_of_neg (by simp),
          filter_ne_self (List.nodup_cons.1 (List.nodup_cons.1 hnl).2).1]
      have hn0 : o0 = n0 := by simp at hf'; exact hf'.1
      simp only [if_true, hn0]
      exact ⟨_, rfl, key o0 (fun l => by rw [hw]; simp; tauto) hn0⟩
    · simp only [if_neg e1]
      rw [List.filter_cons_of_pos (by simpa using Ne.symm e0), List.filter_cons_of_pos (by simpa using Ne.symm e1)] at hf
      simp at hf
      refine ⟨_, rfl, ⟨rfl, rfl, rfl, rfl, rfl, rfl⟩, h.nw, fun _ _ _ _ => Iff.rfl, ?_⟩
      intro l; rw [hw]; simp [hf.1, hf.2.1]

/-- a move of the watches followed by the change of the clause -/
theorem wf_moved {db db1 db' : Cdb} (h : db.WF) {cid : Nat} {o0 o1 t0 n0 n1 n2 : Lit} {tl nt : Cls} {c : Cl}
    (hl : (db.clause cid).lits = o0 :: o1 :: t0 :: tl) (hc : c.lits = n0 :: n1 :: n2 :: nt)
    (hnd : (c.lits.map Lit.var).Nodup) (hsf : 2 ≤ c.searchFrom) (hm : Moved db db1 cid n0 n1)
    (h1 : db'.len = db1.len) (h2 : db'.free = db1.free) (h3 : db'.clause = upd db1.clause cid c)
    (eb : db'.blist = db1.blist) (eh : db'.bhash = db1.bhash) (ew : db'.watch = db1.watch) : db'.WF := by
  obtain ⟨⟨r1, r2, r3, r4, r5, -⟩, nw, wo, wc⟩ := hm
  refine wf_to_long h hl (by simp) (c := c) (by rw [hc]; simp) hnd hsf (by rw [h1, r2]) (by rw [h2, r3]) (by rw [h3, r1])
    (by rw [eb, r4]) (by rw [eh, r5]) ?_ ?_ ?_
  · intro l; rw [ew]; exact nw l
  · intro l i x hi; rw [ew]; exact wo l i x hi
  · intro l; rw [ew, wc, hc, getElem01]; simp

theorem transformByElimination_spec {db : Cdb} {cid : Nat} {p : Lit} (h : db.WF) (hp : p ∈ (db.clause cid).lits) :
    ∃ db' r, db.transformByElimination cid p = some (db', r) ∧ db'.WF ∧ ElimOut db cid p db' r ∧
      (∀ i, i ≠ cid → db'.clause i = db.clause i) ∧ (db'.clause cid).learnt = (db.clause cid).learnt ∧ db'.len = db.len := by
  have hne : (db.clause cid).lits ≠ [] := by intro e; rw [e] at hp; simp at hp
  have h2 := h.len2 cid hne
  have hnd := h.nd cid
  have hsf := h.sf cid
  unfold transformByElimination
  match hl : (db.clause cid).lits, h2 with
  | [o0, o1], _ =>
    rw [hl] at hp hnd
    simp only [List.mem_cons, List.not_mem_nil, or_false] at hp
    have hn := h.ne01 hl
    simp only []
    by_cases e : o0 = p
    · subst e
      rw [if_pos rfl]
      refine ⟨_, _, rfl, ?_, .unit _ (.inr hl) (by simp [setC]) rfl, ?_, by simp [setC], rfl⟩
      · exact wf_same h (c := { db.clause cid with lits := [o1, o0] }) hsf hne (.inr ⟨_, _, _, hl, rfl⟩)
      · intro i hi; simp [setC, upd_of_ne _ _ hi]
    · have e' : p = o1 := by tauto
      subst e'
      rw [if_neg e]
      refine ⟨_, _, rfl, ?_, .unit _ (.inl hl) (by simp [setC]) rfl, ?_, by simp [setC], rfl⟩
      · exact wf_same h (c := { db.clause cid with lits := [o0, p] }) hsf hne (.inl hl.symm)
      · intro i hi; simp [setC, upd_of_ne _ _ hi]
  | o0 :: o1 :: t0 :: tl, _ =>
    have hl3 : 3 ≤ (db.clause cid).lits.length := by rw [hl]; simp
    rw [hl] at hp hnd
    have hlen := length_filter_ne (nodup_of_map_var hnd) hp
    have hnf := nodup_filter_var hnd (· ≠ p)
    simp only []
    generalize hf : (o0 :: o1 :: t0 :: tl).filter (· ≠ p) = fl at hlen hnf
    have hf0 : (db.clause cid).lits.filter (· ≠ p) = fl := by rw [hl]; exact hf
    match fl, hlen with
    | [n0, n1], _ =>
      simp only []
      have hnn : n0.var ≠ n1.var := by simpa using hnf
      cases hs : db.blSearch n0 n1 with
      | some reg =>
        simp only []
        refine ⟨_, _, rfl, ?_, .registered reg n0 n1 hf0 ?_ (by simp [setC]) hl3 rfl, ?_, by simp [setC], rfl⟩
        · exact wf_same h (c := { db.clause cid with searchFrom := 2 }) (Nat.le_refl 2) hne (.inl rfl)
        · obtain ⟨a, b, e1, e2⟩ := (h.hIff _ _).1 hs
          rcases bkey_eq.1 e2 with ⟨rfl, rfl⟩ | ⟨rfl, rfl⟩
          · exact .inl e1
          · exact .inr e1
        · intro i hi; simp [setC, upd_of_ne _ _ hi]
      | none =>
        simp only []
        refine ⟨_, _, rfl, ?_, .clause hl3 ?_ ?_, ?_, ?_, rfl⟩
        · exact wf_to_binary h hl (c := { db.clause cid with lits := [n0, n1], searchFrom := 2 }) rfl hnn (Nat.le_refl 2) hs
            rfl rfl rfl rfl rfl rfl
        · rw [hf0]; simp [log, blAdd, rmW, setC]
        · rw [hf0, hl]; simp [log, blAdd, rmW, setC]
        · intro i hi; simp [log, blAdd, rmW, setC, upd_of_ne _ _ hi]
        · simp [log, blAdd, rmW, setC]
    | n0 :: n1 :: n2 :: nt, _ =>
      obtain ⟨db1, e1, hm⟩ := rewatchElim_spec h hl hf
      simp only [e1]
      refine ⟨_, _, rfl, ?_, .clause hl3 ?_ ?_, ?_, ?_, ?_⟩
      · exact wf_moved h hl (c := { db.clause cid with lits := n0 :: n1 :: n2 :: nt, searchFrom := 2 }) rfl hnf
          (Nat.le_refl 2) hm rfl rfl rfl rfl rfl rfl
      · rw [hf0]; simp [log, setC]
      · rw [hf0, hl]; simp [log, setC, hm.rest.2.2.2.2.2]
      · intro i hi; simp [log, setC, upd_of_ne _ _ hi, hm.rest.1]
      · simp [log, setC]
      · exact hm.rest.2.1

/-! ## transform_by_simplification -/

theorem rewatch_spec {db : Cdb} (h : db.WF) {cid : Nat} {o0 o1 t0 n0 n1 : Lit} {tl : Cls}
    (hl : (db.clause cid).lits = o0 :: o1 :: t0 :: tl) (hnn : n0 ≠ n1) : Moved db (db.rewatch cid o0 o1 n0 n1) cid n0 n1 := by
  have hw := fun l => h.wIff l cid
  simp only [hl, getElem01] at hw
  have hw : ∀ l, (∃ b, (cid, b) ∈ db.watch l) ↔ l = o0.neg ∨ l = o1.neg := fun l => by rw [hw]; simp
  have hnw : ∀ l x, (cid, x) ∈ db.watch l → l = o0.neg ∨ l = o1.neg := fun l x hx => (hw l).1 ⟨x, hx⟩
  have hoo := (h.ne01 hl).1
  have e1 : o0.neg ≠ o1.neg := fun e => hoo (Lit.neg_inj.1 e)
  have e2 : n0.neg ≠ n1.neg := fun e => hnn (Lit.neg_inj.1 e)
  obtain ⟨x0, hx0⟩ := (hw o0.neg).2 (.inl rfl)
  obtain ⟨x1, hx1⟩ := (hw o1.neg).2 (.inr rfl)
  have N1 := nodup_rmW h.nw
  -- the three shapes of the update
  have A : ∀ r k n, r ≠ k → (∀ l, (∃ b, (cid, b) ∈ db.watch l) ↔ l = r ∨ l = k) → k ≠ n → n ≠ r → ∀ y z,
      ((((db.rmW r cid).updW k cid y).insW n cid z).NodupW ∧
        (∀ l i x, i ≠ cid → ((i, x) ∈ (((db.rmW r cid).updW k cid y).insW n cid z).watch l ↔ (i, x) ∈ db.watch l)) ∧
        (∀ l, (∃ x, (cid, x) ∈ (((db.rmW r cid).updW k cid y).insW n cid z).watch l) ↔ l = k ∨ l = n)) ∧
      ((((db.rmW r cid).insW n cid z).updW k cid y).NodupW ∧
        (∀ l i x, i ≠ cid → ((i, x) ∈ (((db.rmW r cid).insW n cid z).updW k cid y).watch l ↔ (i, x) ∈ db.watch l)) ∧
        (∀ l, (∃ x, (cid, x) ∈ (((db.rmW r cid).insW n cid z).updW k cid y).watch l) ↔ l = k ∨ l = n)) := by
    intro r k n hrk hwr hkn hnr y z
    have M1 := N1 r cid
    have hk : cid ∈ ((db.rmW r cid).watch k).map Prod.fst := by
      obtain ⟨b, hb⟩ := (hwr k).2 (.inr rfl)
      refine List.mem_map.2 ⟨(cid, b), ?_, rfl⟩
      rw [mem_rmW h.nw]; exact ⟨hb, fun e => hrk e.1.symm⟩
    have hn : ∀ x, (cid, x) ∉ (db.rmW r cid).watch n := by
      intro x hx; rw [mem_rmW h.nw] at hx
      rcases (hwr n).1 ⟨x, hx.1⟩ with e | e
      · exact hnr e
      · exact hkn e.symm
    have M2 := nodup_updW M1 k cid y
    have M3 := nodup_insW M1 n cid z hn
    have hk3 : cid ∈ (((db.rmW r cid).insW n cid z).watch k).map Prod.fst := by
      obtain ⟨b, hb, hb2⟩ := List.mem_map.1 hk
      exact List.mem_map.2 ⟨b, (mem_insW _ _ _ _ _ _).2 (.inl hb), hb2⟩
    have hwl : ∀ l x, (cid, x) ∈ db.watch l → l = r ∨ l = k := fun l x hx => (hwr l).1 ⟨x, hx⟩
    refine ⟨⟨nodup_insW M2 n cid z ?_, ?_, ?_⟩, ⟨nodup_updW M3 k cid y, ?_, ?_⟩⟩
    · intro x hx; rw [mem_updW M1] at hx
      rcases hx with hx | hx
      · exact hn x hx.1
      · exact hkn hx.1.symm
    · intro l i x hi; rw [mem_insW, mem_updW M1, mem_rmW h.nw]; simp [hi]
    · intro l; simp only [mem_insW, mem_updW M1, mem_rmW h.nw]
      constructor
      · rintro ⟨x, (⟨⟨hx, h1⟩, h2⟩ | ⟨rfl, -⟩) | ⟨rfl, -⟩⟩
        · rcases hwl l x hx with rfl | rfl
          · simp at h1
          · left; rfl
        · left; rfl
        · right; rfl
      · rintro (rfl | rfl)
        · exact ⟨y, .inl (.inr ⟨rfl, rfl, hk⟩)⟩
        · exact ⟨z, .inr ⟨rfl, rfl⟩⟩
    · intro l i x hi; rw [mem_updW M3, mem_insW, mem_rmW h.nw]; simp [hi]
    · intro l; simp only [mem_updW M3, mem_insW, mem_rmW h.nw]
      constructor
      · rintro ⟨x, ⟨(⟨hx, h1⟩ | ⟨rfl, -⟩), h2⟩ | ⟨rfl, -⟩⟩
        · rcases hwl l x hx with rfl | rfl
          · simp at h1
          · simp at h2
        · right; rfl
        · left; rfl
      · rintro (rfl | rfl)
        · exact ⟨y, .inr ⟨rfl, rfl, hk3⟩⟩
        · exact ⟨z, .inl ⟨.inr ⟨rfl, rfl⟩, fun e => hkn e.1.symm⟩⟩
  unfold rewatch
  split
  · rename_i hh; obtain ⟨rfl, rfl⟩ := hh
    exact ⟨⟨rfl, rfl, rfl, rfl, rfl, rfl⟩, h.nw, fun _ _ _ _ => Iff.rfl, hw⟩
  · rename_i hh
    split
    · rename_i h0; subst h0
      have := (A o1.neg o0.neg n1.neg e1.symm (fun l => by rw [hw]; tauto) e2 (fun e => hh ⟨rfl, (Lit.neg_inj.1 e).symm⟩) n1 o0).1
      exact ⟨⟨rfl, rfl, rfl, rfl, rfl, rfl⟩, this.1, this.2.1, this.2.2⟩
    · rename_i h0
      split
      · rename_i h1; subst h1
        by_cases hx : o1 = n0
        · subst hx
          -- the watches only change places
          have M1 := N1 o1.neg cid
          have hn : ∀ x, (cid, x) ∉ (db.rmW o1.neg cid).watch o1.neg := by
            intro x hx; rw [mem_rmW h.nw] at hx; simp at hx
          have M3 := nodup_insW M1 o1.neg cid o0 hn
          refine ⟨⟨rfl, rfl, rfl, rfl, rfl, rfl⟩, nodup_updW M3 _ _ _, ?_, ?_⟩
          · intro l i x hi; rw [mem_updW M3, mem_insW, mem_rmW h.nw]; simp [hi]
          · intro l; simp only [mem_updW M3, mem_insW, mem_rmW h.nw]
            constructor
            · rintro ⟨x, ⟨(⟨hx, h1⟩ | ⟨rfl, -⟩), h2⟩ | ⟨rfl, -⟩⟩
              · rcases hnw l x hx with rfl | rfl
                · right; rfl
                · left; rfl
              · left; rfl
              · right; rfl
            · rintro (rfl | rfl)
              · exact ⟨o0, .inl ⟨.inr ⟨rfl, rfl⟩, fun e => e1 e.1.symm⟩⟩
              · refine ⟨o1, .inr ⟨rfl, rfl, List.mem_map.2 ⟨(cid, x0), ?_, rfl⟩⟩⟩
                rw [mem_insW, mem_rmW h.nw]; exact .inl ⟨hx0, fun e => e1 e.1⟩
        · have := (A o1.neg o0.neg n0.neg e1.symm (fun l => by rw [hw]; tauto) e2.symm (fun e => hx (Lit.neg_inj.1 e).symm) n0 o0).2
          exact ⟨⟨rfl, rfl, rfl, rfl, rfl, rfl⟩, this.1, this.2.1, fun l => by rw [this.2.2]; tauto⟩
      · rename_i h1
        split
        · rename_i h2; subst h2
          have := (A o0.neg o1.neg n1.neg e1 hw e2 (fun e => h1 (Lit.neg_inj.1 e).symm) n1 o1).1
          exact ⟨⟨rfl, rfl, rfl, rfl, rfl, rfl⟩, this.1, this.2.1, this.2.2⟩
        · rename_i h2
          split
          · rename_i h3; subst h3
            have := (A o0.neg o1.neg n0.neg e1 hw e2.symm (fun e => h0 (Lit.neg_inj.1 e).symm) n0 o1).2
            exact ⟨⟨rfl, rfl, rfl, rfl, rfl, rfl⟩, this.1, this.2.1, fun l => by rw [this.2.2]; tauto⟩
          · rename_i h3
            have M1 := N1 o0.neg cid
            have M2 := nodup_rmW M1 o1.neg cid
            have hn : ∀ l x, (cid, x) ∉ ((db.rmW o0.neg cid).rmW o1.neg cid).watch l := by
              intro l x hx; rw [mem_rmW M1, mem_rmW h.nw] at hx
              rcases hnw l x hx.1.1 with rfl | rfl
              · exact hx.1.2 ⟨rfl, rfl⟩
              · exact hx.2 ⟨rfl, rfl⟩
            have M3 := nodup_insW M2 n0.neg cid n1 (hn _)
            refine ⟨⟨rfl, rfl, rfl, rfl, rfl, rfl⟩, nodup_insW M3 _ _ _ ?_, ?_, ?_⟩
            · intro x hx; rw [mem_insW] at hx
              rcases hx with hx | hx
              · exact hn _ _ hx
              · exact e2 hx.1.symm
            · intro l i x hi; rw [mem_insW, mem_insW, mem_rmW M1, mem_rmW h.nw]; simp [hi]
            · intro l; simp only [mem_insW, hn, false_or]
              constructor
              · rintro ⟨x, ⟨rfl, -⟩ | ⟨rfl, -⟩⟩ <;> simp
              · rintro (rfl | rfl)
                · exact ⟨n1, .inl ⟨rfl, rfl⟩⟩
                · exact ⟨n0, .inr ⟨rfl, rfl⟩⟩

/-- the outcome of `transform_by_simplification` -/
inductive SimpOut (db : Cdb) (asg : Nat → Option Bool) (keep : Lit → Bool) (cid : Nat) (db' : Cdb) : RefClause → Prop
  | dead (h : ∃ l ∈ (db.clause cid).lits, litVal asg l = some true) (h' : (db'.clause cid).lits = [])
      (hc : db'.cert = db.cert ++ [.del (db.clause cid).lits]) : SimpOut db asg keep cid db' .dead
  | same (h' : db' = db) : SimpOut db asg keep cid db' (.clause cid)
  | empty (h : (db.clause cid).lits.filter keep = []) (h' : db' = db) : SimpOut db asg keep cid db' .emptyClause
  | unit (l : Lit) (h : (db.clause cid).lits.filter keep = [l]) (h' : db' = db) : SimpOut db asg keep cid db' (.unit l)
  | registered (bid : Nat) (a b : Lit) (h : (db.clause cid).lits.filter keep = [a, b]) (hb : bid ≠ cid)
      (hr : (db.clause bid).lits = [a, b] ∨ (db.clause bid).lits = [b, a]) (h' : (db'.clause cid).lits = [])
      (hc : db'.cert = db.cert ++ [.del (db.clause cid).lits]) : SimpOut db asg keep cid db' (.registered bid)
  | shorter (h : 2 ≤ ((db.clause cid).lits.filter keep).length) (h' : (db'.clause cid).lits = (db.clause cid).lits.filter keep)
      (hlt : ((db.clause cid).lits.filter keep).length < (db.clause cid).lits.length)
      (hl : (db'.clause cid).learnt = ((db.clause cid).learnt && decide (((db.clause cid).lits.filter keep).length ≠ 2)))
      (hc : db'.cert = db.cert ++ [.add ((db.clause cid).lits.filter keep), .del (db.clause cid).lits]) :
      SimpOut db asg keep cid db' (.clause cid)

theorem filter_shorter {α} {q : α → Bool} {l : List α} (h : ¬ l.all q = true) : (l.filter q).length < l.length := by
  have := List.length_filter_le q l
  by_contra hh
  have : (l.filter q).length = l.length := by omega
  rw [List.length_filter_eq_length_iff] at this
  exact h (List.all_eq_true.2 this)

theorem transformBySimplification_spec {db : Cdb} {asg : Nat → Option Bool} {elim : Nat → Bool} {cid : Nat} (h : db.WF)
    (hne : (db.clause cid).lits ≠ []) :
    ∃ db' r, db.transformBySimplification asg elim cid = some (db', r) ∧ db'.WF ∧
      SimpOut db asg (fun l => litVal asg l == none && !elim l.var) cid db' r ∧
      (∀ i, i ≠ cid → db'.clause i = db.clause i) ∧ db'.len = db.len := by
  obtain ⟨dbr, hrm⟩ := removeClause_isSome h hne
  obtain ⟨s1, -, s2, s3, s4⟩ := removeClause_spec h hrm
  have h2 := h.len2 cid hne
  unfold transformBySimplification
  by_cases hany : (db.clause cid).lits.any (fun l => litVal asg l == some true) = true
  · rw [if_pos hany, hrm]
    refine ⟨_, _, rfl, s1, .dead ?_ (by rw [s2]; simp) s4, ?_, s3⟩
    · simpa using hany
    · intro i hi; rw [s2, upd_of_ne _ _ hi]
  · rw [if_neg hany]
    by_cases hall : (db.clause cid).lits.all (fun l => litVal asg l == none && !elim l.var) = true
    · rw [if_pos hall]
      exact ⟨_, _, rfl, h, .same rfl, fun _ _ => rfl, rfl⟩
    · rw [if_neg hall]
      have hlt := filter_shorter hall
      have hnf := nodup_filter_var (h.nd cid) (fun l => litVal asg l == none && !elim l.var)
      generalize hf : (db.clause cid).lits.filter (fun l => litVal asg l == none && !elim l.var) = fl at hlt hnf
      match fl, hlt with
      | [], _ => exact ⟨_, _, rfl, h, .empty hf rfl, fun _ _ => rfl, rfl⟩
      | [l], _ => exact ⟨_, _, rfl, h, .unit l hf rfl, fun _ _ => rfl, rfl⟩
      | [a, b], hlt =>
        match hl : (db.clause cid).lits, hlt with
        | o0 :: o1 :: t0 :: tl, hlt =>
          simp only []
          have hnn : a.var ≠ b.var := by simpa using hnf
          cases hs : db.blSearch a b with
          | some bid =>
            simp only [hrm, Option.map_some]
            have hr : (db.clause bid).lits = [a, b] ∨ (db.clause bid).lits = [b, a] := by
              obtain ⟨x, y, e1, e2⟩ := (h.hIff _ _).1 hs
              rcases bkey_eq.1 e2 with ⟨rfl, rfl⟩ | ⟨rfl, rfl⟩
              · exact .inl e1
              · exact .inr e1
            refine ⟨_, _, rfl, s1, .registered bid a b hf ?_ hr (by rw [s2]; simp) s4, ?_, s3⟩
            · rintro rfl; rw [hl] at hr; simp at hr
            · intro i hi; rw [s2, upd_of_ne _ _ hi]
          | none =>
            simp only []
            refine ⟨_, _, rfl, ?_, .shorter (by rw [hf]; simp) ?_ ?_ ?_ ?_, ?_, rfl⟩
            · exact wf_to_binary h hl (c := { db.clause cid with lits := [a, b], learnt := false }) rfl hnn (h.sf cid) hs
                rfl rfl rfl rfl rfl rfl
            · rw [hf]; simp [log, blAdd, rmW, setC]
            · rw [hf, hl]; exact hlt
            · rw [hf]; simp [log, blAdd, rmW, setC]
            · rw [hf, hl]; simp [log, blAdd, rmW, setC]
            · intro i hi; simp [log, blAdd, rmW, setC, upd_of_ne _ _ hi]
      | n0 :: n1 :: n2 :: nt, hlt =>
        match hl : (db.clause cid).lits, hlt with
        | o0 :: o1 :: t0 :: tl, hlt =>
          simp only []
          have hnn : n0 ≠ n1 := by
            have := nodup_of_map_var hnf; simp at this; exact this.1.1
          have hm := rewatch_spec h hl hnn
          refine ⟨_, _, rfl, ?_, .shorter (by rw [hf]; simp) ?_ ?_ ?_ ?_, ?_, ?_⟩
          · exact wf_moved h hl (c := { db.clause cid with lits := n0 :: n1 :: n2 :: nt }) rfl hnf
              (h.sf cid) hm rfl rfl rfl rfl rfl rfl
          · rw [hf]; simp [log, setC]
          · rw [hf, hl]; exact hlt
          · rw [hf]; simp [log, setC]
          · rw [hf, hl]; simp [log, setC, hm.rest.2.2.2.2.2]
          · intro i hi; simp [log, setC, upd_of_ne _ _ hi, hm.rest.1]
          · exact hm.rest.2.1

end Cdb
end Splr
