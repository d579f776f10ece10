import Verif.Model.Cdb
import Verif.Props.Misc
import Mathlib.Data.List.Nodup
import Mathlib.Data.List.Perm.Basic
/-! Membership lemmas for the link lists of the clause database. -/
namespace Splr

@[simp] theorem upd_same {α β} [DecidableEq α] (f : α → β) (a : α) (b : β) : upd f a b a = b := by simp [upd]
theorem upd_of_ne {α β} [DecidableEq α] (f : α → β) {a x : α} (b : β) (h : x ≠ a) : upd f a b x = f x := by simp [upd, h]
theorem upd_apply {α β} [DecidableEq α] (f : α → β) (a : α) (b : β) (x : α) : upd f a b x = if x = a then b else f x := rfl

theorem Lit.ord_inj {a b : Lit} (h : a.ord = b.ord) : a = b := by
  obtain ⟨v, p⟩ := a; obtain ⟨w, q⟩ := b
  simp only [Lit.ord] at h
  cases p <;> cases q <;> simp at h ⊢ <;> omega

theorem bkey_comm (a b : Lit) : bkey a b = bkey b a := by
  unfold bkey
  by_cases h : a.ord ≤ b.ord <;> by_cases h' : b.ord ≤ a.ord <;> simp [h, h']
  · have := Lit.ord_inj (Nat.le_antisymm h h'); simp [this]
  · omega

theorem bkey_eq {a b c d : Lit} : bkey a b = bkey c d ↔ (a = c ∧ b = d) ∨ (a = d ∧ b = c) := by
  constructor
  · unfold bkey; split <;> split <;> simp <;> tauto
  · rintro (⟨rfl, rfl⟩ | ⟨rfl, rfl⟩)
    · rfl
    · exact bkey_comm _ _

section lists
variable {α β : Type} [DecidableEq α]

theorem mem_del_fst {w : List (α × β)} (hn : (w.map Prod.fst).Nodup) (k : α) (x : α × β) :
    x ∈ deleteUnstable w (fun e => e.1 == k) ↔ x ∈ w ∧ x.1 ≠ k := by
  rw [(C41_delete_unstable w _).mem_iff]
  induction w with
  | nil => simp
  | cons e w ih =>
    simp only [List.map_cons, List.nodup_cons] at hn
    by_cases h : e.1 = k
    · rw [List.eraseP_cons_of_pos (by simp [h])]
      constructor
      · intro hx
        refine ⟨List.mem_cons_of_mem _ hx, fun hk => hn.1 ?_⟩
        rw [h, ← hk]; exact List.mem_map_of_mem hx
      · rintro ⟨hx, hk⟩
        rcases List.mem_cons.1 hx with rfl | hx
        · exact absurd h hk
        · exact hx
    · rw [List.eraseP_cons_of_neg (by simp [h])]
      simp only [List.mem_cons, ih hn.2]
      constructor
      · rintro (rfl | h1)
        · exact ⟨.inl rfl, h⟩
        · exact ⟨.inr h1.1, h1.2⟩
      · rintro ⟨rfl | h1, h2⟩
        · exact .inl rfl
        · exact .inr ⟨h1, h2⟩

theorem nodup_del {γ : Type} {w : List (α × β)} (f : α × β → γ) (hn : (w.map f).Nodup) (p : α × β → Bool) :
    ((deleteUnstable w p).map f).Nodup := by
  rw [((C41_delete_unstable w p).map f).nodup_iff]
  exact List.Nodup.sublist (List.Sublist.map _ List.eraseP_sublist) hn

end lists

/-- all watch lists are without repetition -/
def Cdb.NodupW (db : Cdb) : Prop := ∀ l, ((db.watch l).map Prod.fst).Nodup

theorem mem_removeWatch {w : List (Nat × Lit)} (hn : (w.map Prod.fst).Nodup) (k : Nat) (x : Nat × Lit) :
    x ∈ removeWatch w k ↔ x ∈ w ∧ x.1 ≠ k := mem_del_fst hn k x

theorem updateWatch_fst (w : List (Nat × Lit)) (k : Nat) (b : Lit) :
    (updateWatch w k b).map Prod.fst = w.map Prod.fst := by
  induction w with
  | nil => rfl
  | cons e w ih => by_cases h : e.1 = k <;> simp [updateWatch, h, ih]

theorem mem_updateWatch {w : List (Nat × Lit)} (hn : (w.map Prod.fst).Nodup) (k : Nat) (b : Lit) (x : Nat × Lit) :
    x ∈ updateWatch w k b ↔ (x ∈ w ∧ x.1 ≠ k) ∨ (x = (k, b) ∧ k ∈ w.map Prod.fst) := by
  induction w with
  | nil => simp [updateWatch]
  | cons e w ih =>
    simp only [List.map_cons, List.nodup_cons] at hn
    by_cases h : e.1 = k
    · rw [updateWatch, if_pos h]
      simp only [List.mem_cons, List.map_cons]
      constructor
      · rintro (rfl | hx)
        · right; simp [h]
        · left; refine ⟨.inr hx, fun hk => hn.1 ?_⟩
          rw [h, ← hk]; exact List.mem_map_of_mem hx
      · rintro (⟨rfl | hx, hk⟩ | ⟨rfl, _⟩)
        · exact absurd h hk
        · exact .inr hx
        · simp [h]
    · rw [updateWatch, if_neg h]
      simp only [List.mem_cons, List.map_cons, ih hn.2]
      constructor
      · rintro (rfl | ⟨h1, h2⟩ | ⟨h1, h2⟩)
        · exact .inl ⟨.inl rfl, h⟩
        · exact .inl ⟨.inr h1, h2⟩
        · exact .inr ⟨h1, .inr h2⟩
      · rintro (⟨rfl | h1, h2⟩ | ⟨h1, h2 | h2⟩)
        · exact .inl rfl
        · exact .inr (.inl ⟨h1, h2⟩)
        · exact absurd h2.symm h
        · exact .inr (.inr ⟨h1, h2⟩)

namespace Cdb
variable (db : Cdb)

theorem mem_rmW {db : Cdb} (hn : db.NodupW) (l : Lit) (cid : Nat) (m : Lit) (x : Nat × Lit) :
    x ∈ (db.rmW l cid).watch m ↔ x ∈ db.watch m ∧ ¬ (m = l ∧ x.1 = cid) := by
  unfold rmW; simp only [upd_apply]
  split
  · rename_i h; subst h; rw [mem_removeWatch (hn m)]; simp
  · rename_i h; simp [h]

theorem mem_insW (l : Lit) (cid : Nat) (b m : Lit) (x : Nat × Lit) :
    x ∈ (db.insW l cid b).watch m ↔ x ∈ db.watch m ∨ (m = l ∧ x = (cid, b)) := by
  unfold insW insertWatch; simp only [upd_apply]
  split
  · rename_i h; subst h; simp
  · rename_i h; simp [h]

theorem mem_updW {db : Cdb} (hn : db.NodupW) (l : Lit) (cid : Nat) (b m : Lit) (x : Nat × Lit) :
    x ∈ (db.updW l cid b).watch m ↔
      (x ∈ db.watch m ∧ ¬ (m = l ∧ x.1 = cid)) ∨ (m = l ∧ x = (cid, b) ∧ cid ∈ (db.watch l).map Prod.fst) := by
  unfold updW; simp only [upd_apply]
  split
  · rename_i h; subst h; rw [mem_updateWatch (hn m)]; simp
  · rename_i h; simp [h]

theorem nodup_rmW {db : Cdb} (hn : db.NodupW) (l : Lit) (cid : Nat) : (db.rmW l cid).NodupW := by
  intro m; unfold rmW; simp only [upd_apply]
  split
  · exact nodup_del _ (hn l) _
  · exact hn m

theorem nodup_insW {db : Cdb} (hn : db.NodupW) (l : Lit) (cid : Nat) (b : Lit)
    (h : ∀ x, (cid, x) ∉ db.watch l) : (db.insW l cid b).NodupW := by
  intro m; unfold insW insertWatch; simp only [upd_apply]
  split
  · rw [List.map_append, List.nodup_append]
    refine ⟨hn l, by simp, ?_⟩
    intro a ha b' hb'
    simp at hb'; subst hb'
    rintro rfl
    obtain ⟨x, hx, hx2⟩ := List.mem_map.1 ha
    exact h x.2 (by rw [← hx2]; exact hx)
  · exact hn m

theorem nodup_updW {db : Cdb} (hn : db.NodupW) (l : Lit) (cid : Nat) (b : Lit) : (db.updW l cid b).NodupW := by
  intro m; unfold updW; simp only [upd_apply]
  split
  · rw [updateWatch_fst]; exact hn l
  · exact hn m

/-! binary links -/

/-- the binary link lists have no repeated partner -/
def NodupB (db : Cdb) : Prop := ∀ l, ((db.blist l).map Prod.fst).Nodup

theorem mem_blAdd {a b : Lit} (hab : a ≠ b) (cid : Nat) (m : Lit) (x : Lit × Nat) :
    x ∈ (db.blAdd a b cid).blist m ↔ x ∈ db.blist m ∨ (m = a ∧ x = (b, cid)) ∨ (m = b ∧ x = (a, cid)) := by
  unfold blAdd; simp only [upd_apply]
  by_cases h1 : m = b
  · subst h1
    simp [Ne.symm hab]
  · by_cases h2 : m = a
    · subst h2; simp [hab]
    · simp [h1, h2]

theorem mem_blRemove {db : Cdb} (hn : db.NodupB) {a b : Lit} (hab : a ≠ b) (m : Lit) (x : Lit × Nat) :
    x ∈ (db.blRemove a b).blist m ↔ x ∈ db.blist m ∧ ¬ (m = a ∧ x.1 = b) ∧ ¬ (m = b ∧ x.1 = a) := by
  unfold blRemove; simp only [upd_apply]
  by_cases h1 : m = b
  · subst h1
    simp only [if_true, if_neg (Ne.symm hab)]
    rw [mem_del_fst (hn m)]
    simp [Ne.symm hab]
  · by_cases h2 : m = a
    · subst h2
      simp only [if_true, if_neg hab]
      rw [mem_del_fst (hn m)]
      simp [hab]
    · simp [h1, h2]

theorem nodup_blAdd {db : Cdb} (hn : db.NodupB) {a b : Lit} (hab : a ≠ b) (cid : Nat)
    (h1 : ∀ i, (b, i) ∉ db.blist a) (h2 : ∀ i, (a, i) ∉ db.blist b) : (db.blAdd a b cid).NodupB := by
  intro m; unfold blAdd; simp only [upd_apply]
  have key : ∀ (w : List (Lit × Nat)) (y : Lit), (w.map Prod.fst).Nodup → (∀ i, (y, i) ∉ w) →
      ((w ++ [(y, cid)]).map Prod.fst).Nodup := by
    intro w y hw hy
    rw [List.map_append, List.nodup_append]
    refine ⟨hw, by simp, ?_⟩
    intro u hu v hv; simp at hv; subst hv; rintro rfl
    obtain ⟨x, hx, hx2⟩ := List.mem_map.1 hu
    exact hy x.2 (by rw [← hx2]; exact hx)
  by_cases e1 : m = b
  · subst e1; simp only [if_true, if_neg (Ne.symm hab)]; exact key _ _ (hn m) h2
  · by_cases e2 : m = a
    · subst e2; simp only [if_true, if_neg hab]; exact key _ _ (hn m) h1
    · simp only [if_neg e1, if_neg e2]; exact hn m

theorem nodup_blRemove {db : Cdb} (hn : db.NodupB) (a b : Lit) : (db.blRemove a b).NodupB := by
  intro m; unfold blRemove; simp only [upd_apply]
  split
  · split
    · exact nodup_del _ (nodup_del _ (hn a) _) _
    · exact nodup_del _ (hn b) _
  · split
    · exact nodup_del _ (hn a) _
    · exact hn m

end Cdb
end Splr
