import Verif.Sim.Trends

/-!
# C243, C244: reported truths of the generators; the simulated continuous-treatment panel
-/

set_option linter.unusedSectionVars false
set_option linter.unusedSimpArgs false

namespace Verif.Sim

open MeasureTheory

variable {Ω : Type*} [MeasurableSpace Ω]

/-! ## Model -/

/-- Mean of `y1 - y0` over the units of a mask, `dgp.py:139-142,239-242` (`oracle_att`), `dgp.py:405-413` (`att_g2_t2_unf`, `att_g3_t3_unf`);
`none` is `nan`. -/
noncomputable def maskedEffect {n : ℕ} (mask : Fin n → Bool) (y1 y0 : Fin n → ℝ) : Option ℝ :=
  let m := fun i => if mask i then (1 : ℝ) else 0
  if 0 < ∑ i, m i then some ((∑ i, m i * y1 i - ∑ i, m i * y0 i) / ∑ i, m i) else none

/-- `oracle_att` of `gen_dgp_2periods`, `dgp.py:134-142,235-242`: the outcomes with and without treatment differ by their noises and `att = 0`. -/
noncomputable def oracleAtt {n : ℕ} (state part : Fin n → ℕ) (lin v e10 e11 : Fin n → ℝ) : Option ℝ :=
  maskedEffect (fun i => state i * part i == 1) (fun i => lin i + v i + e11 i + lin i + 0) (fun i => lin i + v i + e10 i + lin i)

/-- `prob_g2_p1` and `prob_g3_p1`, `dgp.py:415-416,568-569`: `pa`, `pb` are the probabilities of the categories (2, eligible), (3, eligible). -/
noncomputable def probOf {n : ℕ} (pa pb : Fin n → ℝ) : ℝ := (∑ i, pa i / (pa i + pb i)) / n

/-- `es_0_oracle`, `dgp.py:402-417`: `cat` is the zero-based category. -/
noncomputable def es0 {n : ℕ} (cat : Fin n → ℕ) (p2a p3a base2 base3 : Fin n → ℝ) (part : Fin n → ℕ) (e1 e2 e3 e5 : Fin n → ℝ) : Option ℝ :=
  (maskedEffect (fun i => cat i == 0) (fun i => base2 i + e2 i + 10 * part i) fun i => base2 i + e1 i).bind fun a2 =>
    (maskedEffect (fun i => cat i == 2) (fun i => base3 i + e5 i + 25 * part i) fun i => base3 i + e3 i).map fun a3 =>
      a2 * probOf p2a p3a + a3 * probOf p3a p2a

/-- Group labels and probabilities handed to `rng.choice` in `simulate_cont_did_data`, `data.py:544-560`; `none` is an exception: a division by
zero for one group, or labels and probabilities of different lengths. -/
noncomputable def contGroups (T : ℕ) (numGroups : Option ℕ) (pGroup : Option (List ℝ)) (pUntreated : Option ℝ) : Option (List ℕ × List ℝ) :=
  let k := numGroups.getD T
  let groups := 0 :: (List.range (T - 1)).map (· + 2)
  let p0 := pUntreated.getD (1 / k)
  if pGroup = none ∧ k ≤ 1 ∨ pUntreated = none ∧ k = 0 then none
  else
    let pg := pGroup.getD (List.replicate (k - 1) ((1 - p0) / ((k : ℝ) - 1)))
    let p := p0 :: pg
    let p := p.map (· / p.sum)
    if p.length = groups.length then some (groups, p) else none

/-- One row per unit and period, `data.py:578-597`: the dose is set to zero for the never-treated group. -/
noncomputable def contRows (T n : ℕ) (group : ℕ → ℕ) (dose : ℕ → ℝ) : List (ℕ × ℕ × ℕ × ℝ) :=
  (List.range n).flatMap fun i => (List.range T).map fun t => (i + 1, t + 1, group i, if group i = 0 then 0 else dose i)

/-! ## Lemmas -/

theorem maskedEffect_some {n : ℕ} (mask : Fin n → Bool) (y1 y0 : Fin n → ℝ) (h : ∃ i, mask i = true) :
    maskedEffect mask y1 y0 = some ((∑ i, (if mask i then y1 i - y0 i else 0)) / ∑ i, if mask i then (1 : ℝ) else 0) := by
  obtain ⟨i, hi⟩ := h
  have hpos : 0 < ∑ i, if mask i then (1 : ℝ) else 0 :=
    Finset.sum_pos' (fun j _ => by split_ifs <;> norm_num) ⟨i, Finset.mem_univ i, by rw [if_pos hi]; norm_num⟩
  unfold maskedEffect
  dsimp only
  have e : ∀ j, (if mask j then (1 : ℝ) else 0) * y1 j - (if mask j then (1 : ℝ) else 0) * y0 j = if mask j then y1 j - y0 j else 0 := fun j => by
    split_ifs <;> ring
  rw [if_pos hpos, ← Finset.sum_sub_distrib, Finset.sum_congr rfl fun j _ => e j]

theorem mask_pos {n : ℕ} (mask : Fin n → Bool) (h : ∃ i, mask i = true) : 0 < ∑ i, if mask i then (1 : ℝ) else 0 := by
  obtain ⟨i, hi⟩ := h
  exact Finset.sum_pos' (fun j _ => by split_ifs <;> norm_num) ⟨i, Finset.mem_univ i, by rw [if_pos hi]; norm_num⟩

/-- The mean over the masked units of a constant plus the difference of two noises. -/
theorem masked_mean {n : ℕ} (P : Measure Ω) [IsProbabilityMeasure P] (mask : Fin n → Bool) (c : ℝ) (a b : Fin n → Ω → ℝ) (ha : ∀ i, MeanZero P (a i))
    (hb : ∀ i, MeanZero P (b i)) (h : ∃ i, mask i = true) :
    Integrable (fun ω => (∑ i, if mask i then c + (a i ω - b i ω) else 0) / ∑ i, if mask i then (1 : ℝ) else 0) P ∧
    ∫ ω, (∑ i, if mask i then c + (a i ω - b i ω) else 0) / (∑ i, if mask i then (1 : ℝ) else 0) ∂P = c := by
  have hpos := mask_pos mask h
  have hi : ∀ i, Integrable (fun ω => if mask i then c + (a i ω - b i ω) else 0) P := by
    intro i
    by_cases hm : mask i
    · simp only [hm, if_true]
      exact (integrable_const c).add ((ha i).1.sub (hb i).1)
    · simp only [hm, if_false]
      exact integrable_const 0
  refine ⟨(integrable_finsetSum _ fun i _ => hi i).div_const _, ?_⟩
  rw [integral_div, integral_finsetSum _ fun i _ => hi i]
  have : ∀ i, ∫ ω, (if mask i then c + (a i ω - b i ω) else 0) ∂P = c * if mask i then 1 else 0 := by
    intro i
    by_cases hm : mask i
    · simp only [hm, if_true]
      have i1 : Integrable (fun ω => a i ω - b i ω) P := (ha i).1.sub (hb i).1
      rw [integral_add (integrable_const c) i1, integral_sub (ha i).1 (hb i).1, (ha i).2, (hb i).2]
      simp
    · simp [hm]
  rw [Finset.sum_congr rfl fun i _ => this i, ← Finset.mul_sum, mul_div_assoc, div_self hpos.ne', mul_one]

/-! ## C243 -/

/-- **C243.**  `gen_dgp_2periods`: given covariates and groups, `oracle_att` has mean `true_att = 0`; it is `nan` exactly without treated eligible
units. -/
theorem C243_oracle {n : ℕ} (P : Measure Ω) [IsProbabilityMeasure P] (state part : Fin n → ℕ) (lin : Fin n → ℝ) (v e10 e11 : Fin n → Ω → ℝ)
    (h10 : ∀ i, MeanZero P (e10 i)) (h11 : ∀ i, MeanZero P (e11 i)) :
    ((∃ i, state i * part i = 1) → ∃ f : Ω → ℝ, (∀ ω, oracleAtt state part lin (fun i => v i ω) (fun i => e10 i ω) (fun i => e11 i ω) = some (f ω)) ∧
      ∫ ω, f ω ∂P = 0) ∧
    ((¬ ∃ i, state i * part i = 1) → ∀ ω, oracleAtt state part lin (fun i => v i ω) (fun i => e10 i ω) (fun i => e11 i ω) = none) := by
  constructor
  · rintro ⟨i, hi⟩
    have hm : ∃ i, (state i * part i == 1) = true := ⟨i, by simpa using hi⟩
    refine ⟨_, fun ω => maskedEffect_some _ _ _ hm, ?_⟩
    refine Eq.trans (integral_congr_ae (Filter.Eventually.of_forall fun ω => ?_)) (masked_mean P (fun i => state i * part i == 1) 0 e11 e10 h11 h10 hm).2
    dsimp only
    congr 1
    refine Finset.sum_congr rfl fun j _ => ?_
    split_ifs <;> ring
  · intro h ω
    unfold oracleAtt maskedEffect
    dsimp only
    rw [if_neg]
    have : ∀ i, (if (state i * part i == 1) then (1 : ℝ) else 0) = 0 := fun i => by
      rw [if_neg]
      simp only [beq_iff_eq]
      exact fun hh => h ⟨i, hh⟩
    simp only [this, Finset.sum_const_zero, lt_self_iff_false, not_false_eq_true]

/-- **C243.**  `gen_dgp_mult_periods`: the reported weights are a convex combination, and given covariates and groups `es_0_oracle` has mean
`10 prob_g2_p1 + 25 prob_g3_p1`. -/
theorem C243_es0 {n : ℕ} (P : Measure Ω) [IsProbabilityMeasure P] (cat : Fin n → ℕ) (p2a p3a base2 base3 : Fin n → ℝ) (e1 e2 e3 e5 : Fin n → Ω → ℝ)
    (hp2 : ∀ i, 0 < p2a i) (hp3 : ∀ i, 0 < p3a i) (h1 : ∀ i, MeanZero P (e1 i)) (h2 : ∀ i, MeanZero P (e2 i)) (h3 : ∀ i, MeanZero P (e3 i))
    (h5 : ∀ i, MeanZero P (e5 i)) (hc2 : ∃ i, cat i = 0) (hc3 : ∃ i, cat i = 2) :
    0 < probOf p2a p3a ∧ 0 < probOf p3a p2a ∧ probOf p2a p3a + probOf p3a p2a = 1 ∧
    ∃ f : Ω → ℝ, (∀ ω, es0 cat p2a p3a base2 base3 (fun i => (multGroup (cat i)).2) (fun i => e1 i ω) (fun i => e2 i ω) (fun i => e3 i ω)
      (fun i => e5 i ω) = some (f ω)) ∧ ∫ ω, f ω ∂P = 10 * probOf p2a p3a + 25 * probOf p3a p2a := by
  obtain ⟨i0, hi0⟩ := hc2
  obtain ⟨i2, hi2⟩ := hc3
  have hn : 0 < n := Fin.pos i0
  have hn' : (0 : ℝ) < n := by exact_mod_cast hn
  have hpos : ∀ a b : Fin n → ℝ, (∀ i, 0 < a i) → (∀ i, 0 < b i) → 0 < probOf a b := fun a b ha hb =>
    div_pos (Finset.sum_pos (fun i _ => div_pos (ha i) (add_pos (ha i) (hb i))) ⟨i0, Finset.mem_univ _⟩) hn'
  refine ⟨hpos _ _ hp2 hp3, hpos _ _ hp3 hp2, ?_, ?_⟩
  · unfold probOf
    rw [← add_div, ← Finset.sum_add_distrib]
    have : ∀ i ∈ Finset.univ, p2a i / (p2a i + p3a i) + p3a i / (p3a i + p2a i) = 1 := fun i _ => by
      rw [add_comm (p3a i), ← add_div, div_self (add_pos (hp2 i) (hp3 i)).ne']
    rw [Finset.sum_congr rfl this]
    simp [hn'.ne']
  · have m2 : ∃ i, (cat i == 0) = true := ⟨i0, by simpa using hi0⟩
    have m3 : ∃ i, (cat i == 2) = true := ⟨i2, by simpa using hi2⟩
    obtain ⟨I2, E2⟩ := masked_mean P (fun i => cat i == 0) 10 e2 e1 h2 h1 m2
    obtain ⟨I3, E3⟩ := masked_mean P (fun i => cat i == 2) 25 e5 e3 h5 h3 m3
    refine ⟨fun ω => (∑ i, if (cat i == 0) then 10 + (e2 i ω - e1 i ω) else 0) / (∑ i, if (cat i == 0) then (1 : ℝ) else 0) * probOf p2a p3a +
      (∑ i, if (cat i == 2) then 25 + (e5 i ω - e3 i ω) else 0) / (∑ i, if (cat i == 2) then (1 : ℝ) else 0) * probOf p3a p2a, fun ω => ?_, ?_⟩
    · unfold es0
      rw [maskedEffect_some _ _ _ m2, maskedEffect_some _ _ _ m3, Option.bind_some, Option.map_some]
      congr 6
      · funext i
        by_cases h : cat i = 0
        · simp [h, multGroup]; ring
        · simp [h]
      · funext i
        by_cases h : cat i = 2
        · simp [h, multGroup]; ring
        · simp [h]
    · rw [integral_add (I2.mul_const _) (I3.mul_const _), integral_mul_const, integral_mul_const, E2, E3]

/-- **C243, violated.**  `prob_g2_p1` and `prob_g3_p1` are not the proportions of units with these cohorts and eligibility: they always add up to
one, also when other units are in the data. -/
theorem C243_proportion_violated {n : ℕ} (cat : Fin n → ℕ) (p2a p3a : Fin n → ℝ) (hp2 : ∀ i, 0 < p2a i) (hp3 : ∀ i, 0 < p3a i)
    (hother : ∃ i, cat i ≠ 0 ∧ cat i ≠ 2) :
    ¬ (probOf p2a p3a = (Finset.univ.filter fun i => cat i = 0).card / n ∧ probOf p3a p2a = (Finset.univ.filter fun i => cat i = 2).card / n) := by
  rintro ⟨e2, e3⟩
  obtain ⟨i0, h0, h2⟩ := hother
  have hn' : (0 : ℝ) < n := by exact_mod_cast Fin.pos i0
  have hsum : probOf p2a p3a + probOf p3a p2a = 1 := by
    unfold probOf
    rw [← add_div, ← Finset.sum_add_distrib]
    have : ∀ i ∈ Finset.univ, p2a i / (p2a i + p3a i) + p3a i / (p3a i + p2a i) = 1 := fun i _ => by
      rw [add_comm (p3a i), ← add_div, div_self (add_pos (hp2 i) (hp3 i)).ne']
    rw [Finset.sum_congr rfl this]
    simp [hn'.ne']
  rw [e2, e3, ← add_div, div_eq_one_iff_eq hn'.ne', ← Nat.cast_add, ← Finset.card_union_of_disjoint] at hsum
  · have hlt : ((Finset.univ.filter fun i => cat i = 0) ∪ Finset.univ.filter fun i => cat i = 2).card < n := by
      have := Finset.card_lt_card (s := (Finset.univ.filter fun i => cat i = 0) ∪ Finset.univ.filter fun i => cat i = 2) (t := Finset.univ)
        (Finset.ssubset_univ_iff.2 fun h => by
          have := h ▸ Finset.mem_univ i0
          simp [h0, h2] at this)
      simpa using this
    exact hlt.ne (by exact_mod_cast hsum)
  · rw [Finset.disjoint_filter]
    intro i _ h h'
    omega

/-- Three units, one never treated: the hypotheses are met. -/
example : ¬ (probOf (n := 3) (fun _ => 1 / 6) (fun _ => 1 / 6) = (Finset.univ.filter fun i : Fin 3 => (![0, 2, 5] : Fin 3 → ℕ) i = 0).card / (3 : ℕ) ∧
    probOf (n := 3) (fun _ => 1 / 6) (fun _ => 1 / 6) = (Finset.univ.filter fun i : Fin 3 => (![0, 2, 5] : Fin 3 → ℕ) i = 2).card / (3 : ℕ)) :=
  C243_proportion_violated ![0, 2, 5] _ _ (fun _ => by norm_num) (fun _ => by norm_num) ⟨2, by simp, by simp⟩

/-! ## C244 -/

/-- **C244.**  `simulate_cont_did_data`: with the default numbers of groups and probabilities every group, also the never-treated one, has
probability one over the number of periods. -/
theorem C244_groups (T : ℕ) (hT : 2 ≤ T) : ∃ p, contGroups T none none none = some (0 :: (List.range (T - 1)).map (· + 2), p) ∧
    p.length = T ∧ ∀ k < T, volume.real {u : ℝ | u ∈ Set.Ico (0 : ℝ) 1 ∧ groupType p u = k} = 1 / T := by
  have hT' : (0 : ℝ) < T := by exact_mod_cast (by omega : 0 < T)
  have hT1 : ((T : ℝ) - 1) ≠ 0 := by
    have : (2 : ℝ) ≤ T := by exact_mod_cast hT
    linarith
  have hval : (1 - 1 / (T : ℝ)) / ((T : ℝ) - 1) = 1 / T := by field_simp
  have hsum : ((1 / (T : ℝ)) :: List.replicate (T - 1) (1 / (T : ℝ))).sum = 1 := by
    rw [List.sum_cons, List.sum_replicate, nsmul_eq_mul, Nat.cast_sub (by omega)]
    field_simp
    push_cast
    ring
  refine ⟨(1 / (T : ℝ)) :: List.replicate (T - 1) (1 / (T : ℝ)), ?_, ?_, ?_⟩
  · unfold contGroups
    dsimp only [Option.getD_none]
    rw [if_neg (by simp; omega), hval, hsum]
    have : List.map (fun x => x / 1) ((1 / (T : ℝ)) :: List.replicate (T - 1) (1 / (T : ℝ))) = (1 / (T : ℝ)) :: List.replicate (T - 1) (1 / (T : ℝ)) := by
      simp
    rw [this, if_pos (by simp)]
  · simp; omega
  · intro k hk
    have hl : k < ((1 / (T : ℝ)) :: List.replicate (T - 1) (1 / (T : ℝ))).length := by simp; omega
    rw [draw_prob _ ?_ hsum k hl]
    · have : ∀ a ∈ ((1 / (T : ℝ)) :: List.replicate (T - 1) (1 / (T : ℝ))), a = 1 / T := by
        intro a ha
        rcases List.mem_cons.1 ha with rfl | ha
        · rfl
        · exact List.eq_of_mem_replicate ha
      exact this _ (List.getElem_mem hl)
    · intro a ha
      rcases List.mem_cons.1 ha with rfl | ha
      · positivity
      · rw [List.eq_of_mem_replicate ha]; positivity

/-- **C244.**  Given probabilities for the treated groups (one for each) and the never treated are normalised. -/
theorem C244_given (T : ℕ) (numGroups : Option ℕ) (p0 : ℝ) (pg : List ℝ) (hlen : pg.length + 1 = T) (h0 : 0 ≤ p0) (hp : ∀ a ∈ pg, 0 ≤ a)
    (hpos : 0 < p0 + pg.sum) : ∃ p, contGroups T numGroups (some pg) (some p0) = some (0 :: (List.range (T - 1)).map (· + 2), p) ∧
    ∀ k (hk : k < (p0 :: pg).length), volume.real {u : ℝ | u ∈ Set.Ico (0 : ℝ) 1 ∧ groupType p u = k} = (p0 :: pg)[k] / (p0 + pg.sum) := by
  refine ⟨(p0 :: pg).map (· / (p0 :: pg).sum), ?_, ?_⟩
  · unfold contGroups
    dsimp only [Option.getD_some]
    rw [if_neg (by simp), if_pos (by simp; omega)]
  · intro k hk
    have hl : k < ((p0 :: pg).map (· / (p0 :: pg).sum)).length := by simpa using hk
    rw [draw_prob _ ?_ ?_ k hl]
    · have : ((p0 :: pg).map (· / (p0 :: pg).sum))[k]? = some ((p0 :: pg)[k] / (p0 + pg.sum)) := by
        rw [List.getElem?_map, List.getElem?_eq_getElem hk, Option.map_some, List.sum_cons]
      rw [List.getElem?_eq_getElem hl, Option.some.injEq] at this
      exact this
    · intro a ha
      obtain ⟨b, hb, rfl⟩ := List.mem_map.1 ha
      rw [List.sum_cons]
      rcases List.mem_cons.1 hb with rfl | hb
      · exact div_nonneg h0 hpos.le
      · exact div_nonneg (hp b hb) hpos.le
    · rw [map_div_sum, List.sum_cons, div_self hpos.ne']

/-- **C244.**  The effect of a dose is `linear * d + quadratic * d^2` in every period from the group's start on, and trends are parallel: the
difference in mean outcomes over time between a treated group at dose `d` and the never treated is that effect after, and zero before the start. -/
theorem C244_effect (P : Measure Ω) [IsProbabilityMeasure P] (lin quad d : ℝ) (ev e0 e1 : ℕ → ℕ → Ω → ℝ) (h0 : ∀ g t, MeanZero P (ev g t))
    (h1 : ∀ g t, MeanZero P (e0 g t)) (h2 : ∀ g t, MeanZero P (e1 g t)) (g t s : ℕ) (hg : 2 ≤ g) (hs : s < g) :
    did (fun g t => ∫ ω, contOutcome lin quad t g d (ev g t ω) (e0 g t ω) (e1 g t ω) ∂P) g 0 t s =
      if g ≤ t then lin * d + quad * d ^ 2 else 0 := by
  have hm : ∀ g t : ℕ, ∫ ω, contOutcome lin quad t g d (ev g t ω) (e0 g t ω) (e1 g t ω) ∂P =
      t + g + if g ≤ t ∧ g ≠ 0 then lin * d + quad * d ^ 2 else 0 := by
    intro g t
    by_cases h : g ≤ t ∧ g ≠ 0
    · refine Eq.trans (integral_congr_ae (Filter.Eventually.of_forall fun ω => ?_)) (integral_affine2 P (ev g t) (e1 g t) (h0 g t) (h2 g t) _ 1)
      unfold contOutcome
      dsimp only
      rw [if_pos h, if_pos h]
      ring
    · refine Eq.trans (integral_congr_ae (Filter.Eventually.of_forall fun ω => ?_)) (integral_affine2 P (ev g t) (e0 g t) (h0 g t) (h1 g t) _ 1)
      unfold contOutcome
      dsimp only
      rw [if_neg h, if_neg h]
      ring
  unfold did
  dsimp only
  rw [hm, hm, hm, hm, if_neg (by omega : ¬ (g ≤ s ∧ g ≠ 0)), if_neg (by omega : ¬ (0 ≤ t ∧ 0 ≠ 0)), if_neg (by omega : ¬ (0 ≤ s ∧ 0 ≠ 0))]
  by_cases h : g ≤ t
  · rw [if_pos ⟨h, by omega⟩, if_pos h]
    push_cast
    ring
  · rw [if_neg (fun hh => h hh.1), if_neg h]
    push_cast
    ring

/-- **C244.**  The panel is balanced: every unit has exactly one row in every period, and group and dose do not change over time. -/
theorem C244_balanced (T n : ℕ) (group : ℕ → ℕ) (dose : ℕ → ℝ) :
    (∀ i t, 1 ≤ i → i ≤ n → 1 ≤ t → t ≤ T → ((contRows T n group dose).filter fun r => decide (r.1 = i ∧ r.2.1 = t)).length = 1) ∧
    (∀ r ∈ contRows T n group dose, 1 ≤ r.1 ∧ r.1 ≤ n ∧ 1 ≤ r.2.1 ∧ r.2.1 ≤ T) ∧
    ∀ r ∈ contRows T n group dose, ∀ r' ∈ contRows T n group dose, r.1 = r'.1 → r.2.2 = r'.2.2 := by
  have hmem : ∀ r, r ∈ contRows T n group dose ↔ ∃ i < n, ∃ t < T, r = (i + 1, t + 1, group i, if group i = 0 then 0 else dose i) := by
    intro r
    simp only [contRows, List.mem_flatMap, List.mem_map, List.mem_range]
    constructor
    · rintro ⟨i, hi, t, ht, rfl⟩; exact ⟨i, hi, t, ht, rfl⟩
    · rintro ⟨i, hi, t, ht, rfl⟩; exact ⟨i, hi, t, ht, rfl⟩
  refine ⟨?_, ?_, ?_⟩
  · intro i t hi hi' ht ht'
    have inner : ∀ (T j : ℕ) (a : ℕ × ℝ), ((List.range T).map fun s => (j + 1, s + 1, a)).countP
        (fun r => decide (r.1 = i ∧ r.2.1 = t)) = if j + 1 = i ∧ t ≤ T then 1 else 0 := by
      intro T j a
      induction T with
      | zero => rw [if_neg (by omega)]; rfl
      | succ T ih =>
        rw [List.range_succ, List.map_append, List.countP_append, ih, List.map_cons, List.map_nil, List.countP_cons, List.countP_nil]
        simp only [decide_eq_true_eq]
        split_ifs <;> omega
    have outer : ∀ n, (contRows T n group dose).countP (fun r => decide (r.1 = i ∧ r.2.1 = t)) = if i ≤ n then 1 else 0 := by
      intro n
      induction n with
      | zero => rw [if_neg (by omega)]; rfl
      | succ n ih =>
        unfold contRows at ih ⊢
        rw [List.range_succ, List.flatMap_append, List.countP_append, ih, List.flatMap_cons, List.flatMap_nil, List.append_nil, inner]
        split_ifs <;> omega
    rw [← List.countP_eq_length_filter, outer, if_pos hi']
  · intro r hr
    obtain ⟨i, hi, t, ht, rfl⟩ := (hmem r).1 hr
    dsimp only
    omega
  · intro r hr r' hr' h
    obtain ⟨i, hi, t, ht, rfl⟩ := (hmem r).1 hr
    obtain ⟨j, hj, t', ht', rfl⟩ := (hmem r').1 hr'
    dsimp only at h ⊢
    have : i = j := by omega
    rw [this]

/-- **C244, violated.**  With any other number of groups than periods, and default probabilities, the call raises an error. -/
theorem C244_num_groups_violated (T k : ℕ) (p0 : Option ℝ) (hT : 2 ≤ T) (h : k ≠ T) : contGroups T (some k) none p0 = none := by
  unfold contGroups
  dsimp only [Option.getD_some, Option.getD_none]
  by_cases hk : k ≤ 1
  · rw [if_pos (Or.inl ⟨rfl, hk⟩)]
  · rw [if_neg (by simp; omega), if_neg]
    simp
    omega

/-- **C244, violated.**  The dose is not zero in the untreated unit-periods of treated units: before the group's start the row already has the
dose. -/
theorem C244_dose_violated (T n : ℕ) (group : ℕ → ℕ) (dose : ℕ → ℝ) (i : ℕ) (hi : i < n) (hg : 2 ≤ group i) (hT : group i ≤ T) :
    ∃ r ∈ contRows T n group dose, r.1 = i + 1 ∧ r.2.1 < r.2.2.1 ∧ r.2.2.2 = dose i := by
  refine ⟨(i + 1, 0 + 1, group i, if group i = 0 then 0 else dose i), ?_, rfl, by show 0 + 1 < group i; omega, if_neg (by omega)⟩
  simp only [contRows, List.mem_flatMap, List.mem_map, List.mem_range]
  exact ⟨i, hi, 0, by omega, rfl⟩

/-- Two units, three periods; the second one starts in period 3 with dose one half. -/
example : (2, 1, 3, 1 / 2) ∈ contRows 3 2 (fun i => if i = 0 then 0 else 3) (fun _ => 1 / 2) := by
  simp [contRows, List.range_succ]

/-- Four periods, three groups: an error. -/
example : contGroups 4 (some 3) none none = none := C244_num_groups_violated 4 3 none (by norm_num) (by norm_num)

end Verif.Sim
