import Verif.Spec.Local
import Verif.Model.Sls
import Mathlib.Tactic.Linarith
import Mathlib.Tactic.Positivity
/-! Lemmas about the local search. -/
namespace Splr

/-- The true literals. -/
def truths (a : Nat → Option Bool) (c : Cls) : Cls := c.filter fun l => decide (a l.var = some l.pos)

theorem falsLoop_spec {a : Nat → Option Bool} : ∀ {c : Cls}, (∀ l ∈ c, a l.var ≠ none) → ∀ n v, n ≤ 1 →
    falsLoop a c n v = if 2 ≤ n + (truths a c).length then some none
      else some (some (n + (truths a c).length, ((truths a c).getLast?.map Lit.var).getD v))
  | [], _, n, v, hn => by
    have : ¬ 2 ≤ n := by omega
    simp [falsLoop, truths, this]
  | l :: c, h, n, v, hn => by
    have hl := h l List.mem_cons_self
    have hc : ∀ l ∈ c, a l.var ≠ none := fun x hx => h x (List.mem_cons_of_mem _ hx)
    cases hb : a l.var with
    | none => exact absurd hb hl
    | some b =>
      by_cases hp : b = l.pos
      · subst hp
        have e : truths a (l :: c) = l :: truths a c := by simp [truths, hb]
        rw [e]
        by_cases h1 : n = 1
        · subst h1
          have : 2 ≤ 1 + (l :: truths a c).length := by simp; omega
          rw [if_pos this]
          simp [falsLoop, hb]
        · have h0 : n = 0 := by omega
          subst h0
          have ih := falsLoop_spec hc 1 l.var (le_refl _)
          have e2 : falsLoop a (l :: c) 0 v = falsLoop a c 1 l.var := by simp [falsLoop, hb]
          rw [e2, ih]
          have e3 : (0 + (l :: truths a c).length) = 1 + (truths a c).length := by simp; omega
          rw [e3]
          split
          · rfl
          · cases truths a c with
            | nil => rfl
            | cons x xs => simp [List.getLast?_cons]
      · have e : truths a (l :: c) = truths a c := by simp [truths, hb, hp]
        rw [e, ← falsLoop_spec hc n v hn]
        simp [falsLoop, hb, hp]

theorem truths_nil_iff {a : Nat → Option Bool} {c : Cls} (h : ∀ l ∈ c, a l.var ≠ none) : truths a c = [] ↔ Falsified a c := by
  unfold truths Falsified
  rw [List.filter_eq_nil_iff]
  constructor
  · intro h2 l hl
    have := h2 l hl
    cases hb : a l.var with
    | none => exact absurd hb (h l hl)
    | some b => rw [hb] at this; cases b <;> cases hp : l.pos <;> simp_all
  · intro h2 l hl
    rw [h2 l hl]
    simp

theorem isFalsified_spec {a : Nat → Option Bool} {c : Cls} (h : ∀ l ∈ c, a l.var ≠ none) (ft : FlipMap) :
    ∃ ft1, isFalsified a c ft = some (decide (Falsified a c), ft1) ∧ (Falsified a c → ft1 = ft) ∧
      ∀ v, ft1 v = if (truths a c).map Lit.var = [v] then some ((ft v).getD 0 + 1) else ft v := by
  unfold isFalsified
  rw [falsLoop_spec h 0 0 (by omega)]
  have hf := truths_nil_iff h
  rcases ht : truths a c with _ | ⟨x, _ | ⟨y, r⟩⟩
  · have : Falsified a c := hf.1 ht
    refine ⟨ft, by simp [this], fun _ => rfl, fun v => by simp⟩
  · have : ¬ Falsified a c := fun hh => by rw [hf.2 hh] at ht; simp at ht
    refine ⟨upd ft x.var (some ((ft x.var).getD 0 + 1)), by simp [this], fun hh => absurd hh this, fun v => ?_⟩
    unfold upd
    by_cases e : v = x.var
    · subst e
      simp
    · have e' : ¬ x.var = v := fun hh => e hh.symm
      simp [e, e']
  · have : ¬ Falsified a c := fun hh => by rw [hf.2 hh] at ht; simp at ht
    exact ⟨ft, by simp [this], fun _ => rfl, fun v => by simp⟩

/-- How many clauses have `v` as the variable of their only true literal. -/
def crit (a : Nat → Option Bool) (cls : List Cls) (v : Nat) : Nat := cls.countP fun c => decide ((truths a c).map Lit.var = [v])

theorem truths_one {a : Nat → Option Bool} {c : Cls} {v : Nat} : (truths a c).map Lit.var = [v] ↔ ∃ l, truths a c = [l] ∧ l.var = v := by
  rcases truths a c with _ | ⟨x, _ | ⟨y, r⟩⟩ <;> simp

theorem slsScan_spec {a : Nat → Option Bool} {step : Nat} : ∀ {cs : List Cls}, Covers a cs → ∀ u ft t,
    ∃ ft1 t1, slsScan a step cs (u, ft, t) = some (u + numFalsified a cs, ft1, t1) ∧
      (∀ v, (ft1 v).getD 0 = (ft v).getD 0 + crit a cs v) ∧ (∀ v, ft v ≠ none → ft1 v ≠ none) ∧
      (t1 = t ∨ ∃ c ∈ cs, Falsified a c ∧ t1 = some c ∧ ∀ l ∈ c, ft1 l.var ≠ none) ∧
      (t ≠ none → t1 ≠ none) ∧ (0 < numFalsified a cs → t1 ≠ none)
  | [], _, u, ft, t => ⟨ft, t, by simp [slsScan, numFalsified], by simp [crit], fun _ h => h, .inl rfl, fun h => h, by simp [numFalsified]⟩
  | c :: cs, h, u, ft, t => by
    have hc : ∀ l ∈ c, a l.var ≠ none := h c List.mem_cons_self
    have hcs : Covers a cs := fun d hd => h d (List.mem_cons_of_mem _ hd)
    obtain ⟨ft1, e1, e2, e3⟩ := isFalsified_spec hc ft
    have hcr : ∀ v, crit a (c :: cs) v = crit a cs v + if (truths a c).map Lit.var = [v] then 1 else 0 := by
      intro v
      unfold crit
      rw [List.countP_cons]
      simp only [decide_eq_true_eq]
    have hg : ∀ v, (ft1 v).getD 0 = (ft v).getD 0 + if (truths a c).map Lit.var = [v] then 1 else 0 := by
      intro v; rw [e3]; split <;> simp
    have hn : ∀ v, ft v ≠ none → ft1 v ≠ none := by
      intro v hv; rw [e3]; split <;> simp [hv]
    by_cases hf : Falsified a c
    · have hnum : numFalsified a (c :: cs) = numFalsified a cs + 1 := by simp [numFalsified, hf]
      by_cases ht : t = none ∨ u + 1 = step
      · obtain ⟨ft2, t2, f1, f2, f3, f4, f5, f6⟩ := slsScan_spec (step := step) hcs (u + 1) (ft1.touch c) (some c)
        refine ⟨ft2, t2, ?_, fun v => ?_, fun v hv => f3 v ?_, ?_, fun _ => f5 (by simp), fun _ => f5 (by simp)⟩
        · rw [slsScan, e1]
          simp only [hf, decide_true, ht, if_true]
          rw [f1, hnum]; congr 2; omega
        · rw [f2, hcr]
          have : ((ft1.touch c) v).getD 0 = (ft1 v).getD 0 := by unfold FlipMap.touch; split <;> simp
          rw [this, hg]; omega
        · unfold FlipMap.touch; split
          · simp
          · exact hn v hv
        · rcases f4 with f4 | ⟨d, hd, f4⟩
          · refine .inr ⟨c, List.mem_cons_self, hf, f4, fun l hl => f3 _ ?_⟩
            unfold FlipMap.touch
            rw [if_pos (List.mem_map_of_mem hl)]; simp
          · exact .inr ⟨d, List.mem_cons_of_mem _ hd, f4⟩
      · obtain ⟨ft2, t2, f1, f2, f3, f4, f5, f6⟩ := slsScan_spec (step := step) hcs (u + 1) ft1 t
        refine ⟨ft2, t2, ?_, fun v => ?_, fun v hv => f3 v (hn v hv), ?_, f5, fun _ => f5 (fun hh => ht (.inl hh))⟩
        · rw [slsScan, e1]
          simp only [hf, decide_true, ht, if_false]
          rw [f1, hnum]; congr 2; omega
        · rw [f2, hcr, hg]; omega
        · rcases f4 with f4 | ⟨d, hd, f4⟩
          · exact .inl f4
          · exact .inr ⟨d, List.mem_cons_of_mem _ hd, f4⟩
    · have hnum : numFalsified a (c :: cs) = numFalsified a cs := by simp [numFalsified, hf]
      obtain ⟨ft2, t2, f1, f2, f3, f4, f5, f6⟩ := slsScan_spec (step := step) hcs u ft1 t
      refine ⟨ft2, t2, ?_, fun v => ?_, fun v hv => f3 v (hn v hv), ?_, f5, fun hh => f6 (hnum ▸ hh)⟩
      · rw [slsScan, e1]
        simp only [hf, decide_false]
        rw [f1, hnum]
      · rw [f2, hcr, hg]; omega
      · rcases f4 with f4 | ⟨d, hd, f4⟩
        · exact .inl f4
        · exact .inr ⟨d, List.mem_cons_of_mem _ hd, f4⟩

theorem flip_eq (a : Nat → Option Bool) (v : Nat) : flip a v = flipped a v := by
  funext x; unfold flip flipped; by_cases h : x = v <;> simp [h]

theorem broken_iff {a : Nat → Option Bool} {c : Cls} (h : ∀ l ∈ c, a l.var ≠ none) (hd : (c.map Lit.var).Nodup) (v : Nat) :
    (¬ Falsified a c ∧ Falsified (flipped a v) c) ↔ (truths a c).map Lit.var = [v] := by
  have mem : ∀ l, l ∈ truths a c ↔ l ∈ c ∧ a l.var = some l.pos := by intro l; simp [truths]
  have hnd : ((truths a c).map Lit.var).Nodup := hd.sublist (List.filter_sublist.map _)
  constructor
  · rintro ⟨h1, h2⟩
    have key : ∀ l ∈ truths a c, l.var = v := by
      intro l hl
      obtain ⟨hl, hv⟩ := (mem l).1 hl
      have := h2 l hl
      by_contra hne
      rw [flipped, if_neg hne, hv] at this
      simp at this
    rw [← truths_nil_iff h] at h1
    rcases ht : truths a c with _ | ⟨x, _ | ⟨y, r⟩⟩
    · exact absurd ht h1
    · simp [key x (by rw [ht]; simp)]
    · rw [ht] at hnd
      have hx := key x (by rw [ht]; simp)
      have hy := key y (by rw [ht]; simp)
      simp [hx, hy] at hnd
  · intro h1
    obtain ⟨l, h2, rfl⟩ := truths_one.1 h1
    have hl := (mem l).1 (by rw [h2]; simp)
    refine ⟨fun hf => ?_, fun x hx => ?_⟩
    · rw [(truths_nil_iff h).2 hf] at h2; simp at h2
    · by_cases e : x.var = l.var
      · have : x = l := List.inj_on_of_nodup_map hd hx hl.1 e
        subst this
        simp [flipped, hl.2]
      · rw [flipped, if_neg e]
        have hxt : x ∉ truths a c := by rw [h2]; intro hh; simp at hh; exact e (by rw [hh])
        have hv := h x hx
        cases hb : a x.var with
        | none => exact absurd hb hv
        | some b =>
          have : ¬ b = x.pos := fun hh => hxt ((mem x).2 ⟨hx, by rw [hb, hh]⟩)
          cases b <;> cases hp : x.pos <;> simp_all

theorem crit_eq {a : Nat → Option Bool} {cls : List Cls} (h : Covers a cls) (hd : ∀ c ∈ cls, (c.map Lit.var).Nodup) (v : Nat) :
    crit a cls v = numBroken a cls v := by
  unfold crit numBroken
  refine List.countP_congr fun c hc => ?_
  simp only [decide_eq_true_eq]
  exact (broken_iff (h c hc) (hd c hc) v).symm

theorem Covers.flipped {a : Nat → Option Bool} {cls : List Cls} (h : Covers a cls) (v : Nat) : Covers (flipped a v) cls := by
  intro c hc l hl
  have := h c hc l hl
  unfold Splr.flipped
  split
  · intro hh; apply this; cases hb : a l.var with
    | none => rfl
    | some b => rw [hb] at hh; simp at hh
  · exact this

section
variable {K : Type} [Field K] [LinearOrder K] [IsStrictOrderedRing K]

omit [IsStrictOrderedRing K] in
theorem pickLoop_spec {f : Nat → K} (hf : ∀ v, 0 < f v) {index : K} : ∀ {vs : List Nat} {sum : K}, sum < index ∨ sum = 0 ∧ index = 0 → vs ≠ [] →
    index ≤ sum + (vs.map f).sum → ∃ pre v post, vs = pre ++ v :: post ∧ pickLoop f index vs sum = some v ∧
      index ≤ sum + ((pre ++ [v]).map f).sum ∧ (pre = [] ∨ sum + (pre.map f).sum < index)
  | [], _, _, h, _ => absurd rfl h
  | v :: vs, sum, h0, _, h => by
    by_cases h1 : index ≤ sum + f v
    · exact ⟨[], v, vs, rfl, by simp [pickLoop, h1], by simpa using h1, .inl rfl⟩
    · have h1' : sum + f v < index := not_le.1 h1
      have hne : vs ≠ [] := by
        rintro rfl
        simp at h
        exact h1 h
      obtain ⟨pre, w, post, e1, e2, e3, e4⟩ := pickLoop_spec hf (vs := vs) (sum := sum + f v) (index := index) (.inl h1') hne (by simpa [add_assoc] using h)
      refine ⟨v :: pre, w, post, by rw [e1]; rfl, by simp [pickLoop, h1, e2], by simpa [add_assoc] using e3, .inr ?_⟩
      rcases e4 with rfl | e4
      · simpa using h1'
      · simpa [add_assoc] using e4

theorem pickVar_spec {w : Nat → K} (hw : ∀ n, 0 < w n) {ft : FlipMap} {c : Cls} (hc : c ≠ []) (hft : ∀ l ∈ c, ft l.var ≠ none) (seed : Nat) :
    ∃ pre l post, c = pre ++ l :: post ∧ pickVar w ft seed c = some (some l.var) ∧
      ((seed % 100 : Nat) : K) / 100 * (c.map fun x => w ((ft x.var).getD 0)).sum ≤ ((pre ++ [l]).map fun x => w ((ft x.var).getD 0)).sum ∧
      (pre = [] ∨ (pre.map fun x => w ((ft x.var).getD 0)).sum < ((seed % 100 : Nat) : K) / 100 * (c.map fun x => w ((ft x.var).getD 0)).sum) := by
  have hany : c.any (fun l => (ft l.var).isNone) = false := by
    rw [List.any_eq_false]; intro l hl
    have := hft l hl
    cases h : ft l.var with
    | none => exact absurd h this
    | some _ => simp
  set f := fun v => w ((ft v).getD 0) with hfdef
  have hf : ∀ v, 0 < f v := fun v => hw _
  have hS : 0 < ((c.map Lit.var).map f).sum := by
    cases c with
    | nil => exact absurd rfl hc
    | cons x xs =>
      simp only [List.map_cons, List.sum_cons]
      have : 0 ≤ ((xs.map Lit.var).map f).sum := List.sum_nonneg (by simp only [List.mem_map]; rintro _ ⟨_, _, rfl⟩; exact (hf _).le)
      linarith [hf x.var]
  have hr : ((seed % 100 : Nat) : K) ≤ 99 := by
    have : seed % 100 ≤ 99 := by omega
    exact_mod_cast this
  have hr0 : (0 : K) ≤ ((seed % 100 : Nat) : K) := Nat.cast_nonneg _
  set S := ((c.map Lit.var).map f).sum with hSd
  set r : K := ((seed % 100 : Nat) : K) with hrd
  have hidx : r / 100 * S ≤ S := by
    have : r / 100 ≤ 1 := by rw [div_le_one (by norm_num)]; linarith
    nlinarith
  have h0 : 0 ≤ r / 100 * S := mul_nonneg (div_nonneg hr0 (by norm_num)) hS.le
  have h0' : (0 : K) < r / 100 * S ∨ (0 : K) = 0 ∧ r / 100 * S = 0 := by
    rcases h0.lt_or_eq with h | h
    · exact .inl h
    · exact .inr ⟨rfl, h.symm⟩
  obtain ⟨pre, v, post, e1, e2, e3, e4⟩ := pickLoop_spec hf (vs := c.map Lit.var) (sum := 0) (index := r / 100 * S) h0' (by simpa using hc) (by rw [zero_add]; exact hidx)
  obtain ⟨p1, p2, rfl, hp1, hp2⟩ := List.map_eq_append_iff.1 e1
  obtain ⟨l, p3, rfl, rfl, hp3⟩ := List.map_eq_cons_iff.1 hp2
  subst hp1 hp3
  have hS2 : ∀ d : Cls, (d.map fun x => w ((ft x.var).getD 0)).sum = ((d.map Lit.var).map f).sum := by
    intro d; rw [List.map_map]; rfl
  refine ⟨p1, l, p3, rfl, ?_, ?_, ?_⟩
  · unfold pickVar
    rw [hany]
    simp only [Bool.false_eq_true, if_false]
    rw [e2]
  · rw [hS2, hS2, ← hSd, List.map_append, List.map_cons, List.map_nil]
    rw [zero_add] at e3; exact e3
  · rw [hS2, hS2, ← hSd]
    rcases e4 with h | h
    · exact .inl (by simpa using h)
    · exact .inr (by rw [zero_add] at h; exact h)

theorem slsLoop_spec {w : Nat → Nat → K} (hw : ∀ u n, 0 < w u n) {cls : List Cls} (hne : ∀ c ∈ cls, c ≠ []) (limit : Nat) :
    ∀ (n step seed lastFlip : Nat) (ret : Nat × Nat) (a : Nat → Option Bool), Covers a cls → n + step = limit + 1 → 0 < n → 0 < step →
      ∃ r a' k, slsLoop w cls limit n step seed lastFlip ret a = some ((if step = 1 then numFalsified a cls else ret.1, r), a') ∧ r = numFalsified a' cls ∧
        Walk cls k a a' ∧ k + 1 ≤ n ∧ (r ≠ 0 → k + 1 = n)
  | 0, _, _, _, _, _, _, _, h, _ => absurd h (by omega)
  | n + 1, step, seed, lastFlip, ret, a, ha, hs, _, hs0 => by
    obtain ⟨ft, t, e1, e2, e3, e4, e5, e6⟩ := slsScan_spec (step := step) ha 0 (fun _ => none) none
    rw [Nat.zero_add] at e1
    by_cases h0 : numFalsified a cls = 0 ∨ step = limit
    · refine ⟨numFalsified a cls, a, 0, ?_, rfl, .here a, by omega, fun hr => ?_⟩
      · rw [slsLoop, e1]; simp only [h0, if_true]
      · rcases h0 with h0 | h0
        · exact absurd h0 hr
        · omega
    · push Not at h0
      have hpos : 0 < numFalsified a cls := by omega
      obtain ⟨c, hc, hf, rfl, hft⟩ : ∃ c ∈ cls, Falsified a c ∧ t = some c ∧ ∀ l ∈ c, ft l.var ≠ none := by
        rcases e4 with e4 | e4
        · exact absurd e4 (e6 hpos)
        · exact e4
      obtain ⟨pre, l, post, p1, p2, -, -⟩ := pickVar_spec (hw (numFalsified a cls)) (hne c hc) hft (nextSeed seed lastFlip)
      have hl : l ∈ c := by rw [p1]; simp
      obtain ⟨r, a', k, q1, q2, q3, q4, q5⟩ := slsLoop_spec hw hne limit n (step + 1) (nextSeed seed lastFlip) l.var
        (if step = 1 then numFalsified a cls else ret.1, numFalsified a cls) (flipped a l.var) (ha.flipped _) (by omega) (by omega) (by omega)
      refine ⟨r, a', k + 1, ?_, q2, .step hc hf hl q3, by omega, fun hr => by have := q5 hr; omega⟩
      rw [slsLoop, e1]
      have h0' : ¬ (numFalsified a cls = 0 ∨ step = limit) := by push Not; exact h0
      simp only [h0', if_false, p2]
      rw [flip_eq, q1]
      have h2 : ¬ step + 1 = 1 := by omega
      rw [if_neg h2]

end
end Splr
