import Verif.Lemmas.CdbMove
/-! The cached literals of watch list entries: every operation writes only literals of the clause. -/
namespace Splr
namespace Cdb

/-- Every entry is an old one, or its cached literal belongs to the clause. -/
def Fresh (db db' : Cdb) : Prop := ∀ m i x, (i, x) ∈ db'.watch m → (i, x) ∈ db.watch m ∨ x ∈ (db'.clause i).lits

theorem sub_rmW {db : Cdb} {l m : Lit} {cid : Nat} {x : Nat × Lit} (h : x ∈ (db.rmW l cid).watch m) : x ∈ db.watch m := by
  unfold rmW at h; simp only [upd_apply] at h
  split at h
  · rename_i e; subst e
    exact List.eraseP_sublist.subset ((C41_delete_unstable _ _).mem_iff.1 h)
  · exact h

theorem sub_insW {db : Cdb} {l m b : Lit} {cid : Nat} {x : Nat × Lit} (h : x ∈ (db.insW l cid b).watch m) :
    x ∈ db.watch m ∨ x = (cid, b) := by
  rw [mem_insW] at h; exact h.imp id And.right

theorem sub_updateWatch {k : Nat} {b : Lit} {x : Nat × Lit} : ∀ {w : List (Nat × Lit)}, x ∈ updateWatch w k b → x ∈ w ∨ x = (k, b)
  | [], h => by simp [updateWatch] at h
  | e :: w, h => by
    unfold updateWatch at h
    split at h
    · rename_i hk
      rcases List.mem_cons.1 h with h | h
      · right; rw [h, hk]
      · left; simp [h]
    · rcases List.mem_cons.1 h with h | h
      · left; simp [h]
      · exact (sub_updateWatch h).imp (by intro h; simp [h]) id

theorem sub_updW {db : Cdb} {l m b : Lit} {cid : Nat} {x : Nat × Lit} (h : x ∈ (db.updW l cid b).watch m) :
    x ∈ db.watch m ∨ x = (cid, b) := by
  unfold updW at h; simp only [upd_apply] at h
  split at h
  · rename_i e; subst e; exact sub_updateWatch h
  · exact .inl h

theorem Fresh.of_watch {db db' : Cdb} (h : db'.watch = db.watch) : Fresh db db' := fun m i x hx => .inl (by rw [← h]; exact hx)

/-- entries are old or come from a list of pairs -/
theorem Fresh.of_sub {db db' : Cdb} {cid : Nat} {a b : Lit}
    (h : ∀ m x, x ∈ db'.watch m → x ∈ db.watch m ∨ x = (cid, a) ∨ x = (cid, b)) (ha : a ∈ (db'.clause cid).lits)
    (hb : b ∈ (db'.clause cid).lits) : Fresh db db' := by
  intro m i x hx
  rcases h m (i, x) hx with h | h | h
  · exact .inl h
  · obtain ⟨rfl, rfl⟩ := Prod.mk.inj h; exact .inr ha
  · obtain ⟨rfl, rfl⟩ := Prod.mk.inj h; exact .inr hb

theorem sub_attach {db : Cdb} {cid : Nat} {l0 l1 : Lit} {t : Bool} {m : Lit} {x : Nat × Lit} (hx : x ∈ (db.attach cid l0 l1 t).watch m) :
    x ∈ db.watch m ∨ x = (cid, l1) ∨ x = (cid, l0) := by
  unfold attach at hx
  split at hx
  · exact .inl hx
  · rcases sub_insW hx with hx | hx
    · exact (sub_insW hx).imp id .inl
    · exact .inr (.inr hx)

theorem fresh_newClause {db db' : Cdb} {level : Nat → Nat} {vec : Cls} {learnt : Bool} {r : RefClause} (h : db.WF)
    (hnd : (vec.map Lit.var).Nodup) (e : db.newClause level vec learnt = some (db', r)) : Fresh db db' := by
  obtain ⟨-, hs⟩ := newClause_spec h hnd e
  rcases hs with ⟨_, _, _, -, e2, -⟩ | ⟨cid, c, hr, -, -, -, hc, h2, -, -, -, hcl, -⟩
  · exact .of_watch (by rw [e2])
  · match vec, h2 with
    | l0 :: l1 :: tl, _ =>
      have hin : ∀ y ∈ l0 :: l1 :: tl, y ∈ (db'.clause cid).lits := fun y hy => by rw [hcl]; simp only [upd_same]; rw [hc]; exact hy
      refine .of_sub (cid := cid) (a := l0) (b := l1) (fun m x hx => ?_) (hin _ (by simp)) (hin _ (by simp))
      unfold newClause at e
      simp only [] at e
      split at e
      · simp only [Option.some.injEq, Prod.mk.injEq] at e
        rw [← e.2] at hr; cases hr
      · simp only [Option.some.injEq, Prod.mk.injEq] at e
        obtain ⟨e1, e2⟩ := e
        have hcid : _ = cid := RefClause.clause.inj (e2.trans hr)
        have hw : ∀ c : Cl, ((db.log (.add (l0 :: l1 :: tl))).alloc c).1.watch = db.watch := by
          intro c; unfold alloc; split <;> rfl
        rw [← e1] at hx
        rcases sub_attach hx with h | h | h
        · left; rw [← hw]; exact h
        · rw [hcid] at h; exact .inr (.inr h)
        · rw [hcid] at h; exact .inr (.inl h)

theorem fresh_removeClause {db db' : Cdb} {cid : Nat} (e : db.removeClause cid = some db') : Fresh db db' := by
  unfold removeClause at e
  split at e
  next l0 l1 tl hl =>
    simp only [Option.some.injEq] at e
    intro m i x hx
    left
    rw [← e] at hx
    by_cases ht : tl.isEmpty
    · simp only [ht, if_true] at hx; exact hx
    · simp only [ht] at hx
      exact sub_rmW (sub_rmW hx)
  next => simp at e

theorem fresh_rewatch {db : Cdb} {cid : Nat} {o0 o1 n0 n1 : Lit} {m : Lit} {x : Nat × Lit}
    (hx : x ∈ (db.rewatch cid o0 o1 n0 n1).watch m) : x ∈ db.watch m ∨ x = (cid, n0) ∨ x = (cid, n1) := by
  unfold rewatch at hx
  split at hx
  · exact .inl hx
  split at hx
  · rcases sub_insW hx with h | h
    · rcases sub_updW h with h | h
      · exact .inl (sub_rmW h)
      · exact .inr (.inr h)
    · exact .inr (.inl h)
  split at hx
  · rcases sub_updW hx with h | h
    · rcases sub_insW h with h | h
      · exact .inl (sub_rmW h)
      · exact .inr (.inr h)
    · exact .inr (.inl h)
  split at hx
  · rcases sub_insW hx with h | h
    · rcases sub_updW h with h | h
      · exact .inl (sub_rmW h)
      · exact .inr (.inr h)
    · exact .inr (.inl h)
  split at hx
  · rcases sub_updW hx with h | h
    · rcases sub_insW h with h | h
      · exact .inl (sub_rmW h)
      · exact .inr (.inr h)
    · exact .inr (.inl h)
  · rcases sub_insW hx with h | h
    · rcases sub_insW h with h | h
      · exact .inl (sub_rmW (sub_rmW h))
      · exact .inr (.inr h)
    · exact .inr (.inl h)

theorem fresh_simplify {db db' : Cdb} {asg : Nat → Option Bool} {elim : Nat → Bool} {cid : Nat} {r : RefClause}
    (e : db.transformBySimplification asg elim cid = some (db', r)) : Fresh db db' := by
  have rm : ∀ {r0 : RefClause}, (db.removeClause cid).map (·, r0) = some (db', r) → Fresh db db' := by
    intro r0 h
    cases hq : db.removeClause cid with
    | none => rw [hq] at h; simp at h
    | some d => rw [hq] at h; simp at h; rw [← h.1]; exact fresh_removeClause hq
  unfold transformBySimplification at e
  split at e
  · exact rm e
  split at e
  · simp only [Option.some.injEq, Prod.mk.injEq] at e; exact .of_watch (by rw [e.1])
  split at e
  · simp only [Option.some.injEq, Prod.mk.injEq] at e; exact .of_watch (by rw [e.1])
  · simp only [Option.some.injEq, Prod.mk.injEq] at e; exact .of_watch (by rw [e.1])
  · rename_i l0 l1 o0 o1 tl hf hl
    split at e
    · exact rm e
    · simp only [Option.some.injEq, Prod.mk.injEq] at e
      intro m i x hx; left
      rw [← e.1] at hx
      exact sub_rmW (sub_rmW (show (i, x) ∈ ((db.rmW o0.neg cid).rmW o1.neg cid).watch m from hx))
  · rename_i n0 n1 nt o0 o1 tl hn hf hl
    simp only [Option.some.injEq, Prod.mk.injEq] at e
    refine .of_sub (cid := cid) (a := n0) (b := n1) (fun m x hx => ?_) ?_ ?_
    · rw [← e.1] at hx
      exact fresh_rewatch (show x ∈ (db.rewatch cid o0 o1 n0 n1).watch m from hx)
    · rw [← e.1]; simp [log, setC]
    · rw [← e.1]; simp [log, setC]
  · simp at e

theorem fresh_rewatchElim {db db1 : Cdb} {cid : Nat} {p o0 o1 n0 n1 : Lit} (e : db.rewatchElim cid p o0 o1 n0 n1 = some db1) {m : Lit} {x : Nat × Lit}
    (hx : x ∈ db1.watch m) : x ∈ db.watch m ∨ x = (cid, n0) ∨ x = (cid, n1) := by
  have c : ∀ a b : Lit, x ∈ ((db.rmW p.neg cid).insW a.neg cid b).watch m → x ∈ db.watch m ∨ x = (cid, b) := fun a b h =>
    (sub_insW h).imp sub_rmW id
  unfold rewatchElim at e
  split at e
  · split at e
    · cases e; exact (c _ _ hx).imp id .inl
    split at e
    · cases e; exact (c _ _ hx).imp id .inr
    · simp at e
  split at e
  · split at e
    · cases e; exact (c _ _ hx).imp id .inl
    split at e
    · cases e; exact (c _ _ hx).imp id .inr
    · simp at e
  · cases e; exact .inl hx

theorem fresh_eliminate {db db' : Cdb} {cid : Nat} {p : Lit} {r : RefClause} (e : db.transformByElimination cid p = some (db', r)) : Fresh db db' := by
  unfold transformByElimination at e
  split at e
  · split at e <;>
    · simp only [Option.some.injEq, Prod.mk.injEq] at e; exact .of_watch (by rw [← e.1]; rfl)
  · split at e
    · rename_i n0 n1 hf
      split at e
      · simp only [Option.some.injEq, Prod.mk.injEq] at e; exact .of_watch (by rw [← e.1]; rfl)
      · rename_i o0 o1 tl _ _ _ _ _
        simp only [Option.some.injEq, Prod.mk.injEq] at e
        intro m i x hx; left
        rw [← e.1] at hx
        exact sub_rmW (sub_rmW (show (i, x) ∈ ((db.rmW o0.neg cid).rmW o1.neg cid).watch m from hx))
    · rename_i n0 n1 nt hn hf
      split at e
      · simp at e
      · rename_i db1 h1
        simp only [Option.some.injEq, Prod.mk.injEq] at e
        refine .of_sub (cid := cid) (a := n0) (b := n1) (fun m x hx => ?_) ?_ ?_
        · rw [← e.1] at hx
          exact fresh_rewatchElim h1 (show x ∈ db1.watch m from hx)
        · rw [← e.1]; simp [log, setC]
        · rw [← e.1]; simp [log, setC]
    · simp at e
  · simp at e

end Cdb
end Splr
