import Verif.Honest.ArpCore

/-!
# Conditional rejection regions for arbitrary selection events

Given the residual, the statistic is normal; `condReject` is the exact conditional rejection region of a selection event `I` for the
mean `m0`.  It has conditional probability at most `alpha` for every mean `mu <= m0`.
-/

set_option linter.unusedSectionVars false
set_option linter.unusedSimpArgs false

namespace Verif.Honest

open MeasureTheory ProbabilityTheory Set

/-- Values in the event whose conditional distribution function (mean `m0`) exceeds `1 - alpha`. -/
def condReject (m0 s alpha : ℝ) (I : Set ℝ) : Set ℝ :=
  {x | x ∈ I ∧ (1 - alpha) * (normalLaw m0 s).real I < (normalLaw m0 s).real (I ∩ Iic x)}

theorem split_at (m s : ℝ) (I : Set ℝ) (q : ℝ) :
    (normalLaw m s).real I = (normalLaw m s).real (I ∩ Iic q) + (normalLaw m s).real (I ∩ Ioi q) := by
  have h := measureReal_inter_add_sdiff (μ := normalLaw m s) (s := I) (t := Iic q) measurableSet_Iic
  have e : I \ Iic q = I ∩ Ioi q := by
    ext x
    simp only [mem_diff, mem_inter_iff, mem_Iic, mem_Ioi, not_le]
  rw [e] at h
  exact h.symm

theorem normalLaw_Ioi (m s : ℝ) (hs : 0 < s) (x : ℝ) : (normalLaw m s).real (Ioi x) = 1 - Phi ((x - m) / s) := by
  have h := split_at m s univ x
  rw [univ_inter, univ_inter, probReal_univ, normalLaw_Iic m s hs] at h
  linarith

/-- The distribution function of an event is continuous and takes every value between `0` and its probability. -/
theorem part_value (m s : ℝ) (hs : 0 < s) (I : Set ℝ) (hI : MeasurableSet I) (c : ℝ) (h0 : 0 < c) (h1 : c < (normalLaw m s).real I) :
    ∃ q, (normalLaw m s).real (I ∩ Iic q) = c := by
  set F : ℝ → ℝ := fun x => (normalLaw m s).real (I ∩ Iic x) with hF
  set G : ℝ → ℝ := fun x => Phi ((x - m) / s) with hG
  have hGc : Continuous G := phi_continuous.comp (by fun_prop)
  have hstep : ∀ x y, x ≤ y → 0 ≤ F y - F x ∧ F y - F x ≤ G y - G x := by
    intro x y hxy
    have e : F y - F x = (normalLaw m s).real (I ∩ Ioc x y) := by
      have h := split_at m s (I ∩ Iic y) x
      have e1 : I ∩ Iic y ∩ Iic x = I ∩ Iic x := by
        ext t; simp only [mem_inter_iff, mem_Iic]
        exact ⟨fun h => ⟨h.1.1, h.2⟩, fun h => ⟨⟨h.1, h.2.trans hxy⟩, h.2⟩⟩
      have e2 : I ∩ Iic y ∩ Ioi x = I ∩ Ioc x y := by
        ext t; simp only [mem_inter_iff, mem_Iic, mem_Ioi, mem_Ioc]; tauto
      rw [e1, e2] at h
      simp only [hF]
      linarith
    have e3 : G y - G x = (normalLaw m s).real (Ioc x y) := by
      have h := split_at m s (Iic y) x
      have e1 : Iic y ∩ Iic x = Iic x := by
        ext t; simp only [mem_inter_iff, mem_Iic]
        exact ⟨fun h => h.2, fun h => ⟨h.trans hxy, h⟩⟩
      have e2 : Iic y ∩ Ioi x = Ioc x y := by
        ext t; simp only [mem_inter_iff, mem_Iic, mem_Ioi, mem_Ioc]; tauto
      rw [e1, e2, normalLaw_Iic m s hs, normalLaw_Iic m s hs] at h
      simp only [hG]
      linarith
    rw [e, e3]
    exact ⟨measureReal_nonneg, measureReal_mono inter_subset_right⟩
  have habs : ∀ x y, |F y - F x| ≤ |G y - G x| := by
    intro x y
    rcases le_total x y with h | h
    · obtain ⟨a, b⟩ := hstep x y h
      rw [abs_of_nonneg a]
      exact b.trans (le_abs_self _)
    · obtain ⟨a, b⟩ := hstep y x h
      rw [abs_sub_comm, abs_of_nonneg a, abs_sub_comm]
      exact b.trans (le_abs_self _)
  have hFc : Continuous F := by
    rw [continuous_iff_continuousAt]
    intro x
    rw [Metric.continuousAt_iff]
    intro ε hε
    obtain ⟨δ, hδ, h⟩ := Metric.continuousAt_iff.1 hGc.continuousAt ε hε
    refine ⟨δ, hδ, fun {y} hy => ?_⟩
    have := h hy
    rw [Real.dist_eq] at this ⊢
    exact lt_of_le_of_lt (habs x y) this
  have hFG : ∀ x, F x ≤ G x := fun x => by
    simp only [hF, hG]
    rw [← normalLaw_Iic m s hs]
    exact measureReal_mono inter_subset_right
  have hI1 : (normalLaw m s).real I ≤ 1 := measureReal_le_one
  obtain ⟨x1, hx1⟩ : ∃ x, F x ≤ c := by
    have hc1 : c < 1 := lt_of_lt_of_le h1 hI1
    refine ⟨m + s * ppf c, (hFG _).trans ?_⟩
    simp only [hG]
    have : (m + s * ppf c - m) / s = ppf c := by field_simp; ring
    rw [this, phi_ppf c h0 hc1]
  obtain ⟨x2, hx2⟩ : ∃ x, c ≤ F x := by
    have hd0 : 0 < 1 - ((normalLaw m s).real I - c) := by linarith
    have hd1 : 1 - ((normalLaw m s).real I - c) < 1 := by linarith
    refine ⟨m + s * ppf (1 - ((normalLaw m s).real I - c)), ?_⟩
    have h := split_at m s I (m + s * ppf (1 - ((normalLaw m s).real I - c)))
    have h' : (normalLaw m s).real (I ∩ Ioi (m + s * ppf (1 - ((normalLaw m s).real I - c)))) ≤ (normalLaw m s).real I - c := by
      refine le_trans (measureReal_mono inter_subset_right) ?_
      rw [normalLaw_Ioi m s hs]
      have : (m + s * ppf (1 - ((normalLaw m s).real I - c)) - m) / s = ppf (1 - ((normalLaw m s).real I - c)) := by field_simp; ring
      rw [this, phi_ppf _ hd0 hd1]
      linarith
    simp only [hF]
    linarith
  obtain ⟨q, hq⟩ := mem_range_of_exists_le_of_exists_ge hFc ⟨x1, hx1⟩ ⟨x2, hx2⟩
  exact ⟨q, hq⟩

/-- The conditional rejection region has conditional probability at most `alpha` for every mean not above `m0`. -/
theorem section_gen (μ m0 s alpha : ℝ) (hs : 0 < s) (hμ : μ ≤ m0) (ha0 : 0 < alpha) (ha1 : alpha < 1) (I : Set ℝ) (hI : MeasurableSet I) :
    (normalLaw μ s).real (condReject m0 s alpha I) ≤ alpha * (normalLaw μ s).real I := by
  set D := (normalLaw m0 s).real I with hD
  rcases (measureReal_nonneg : 0 ≤ D).lt_or_eq with hpos | hz
  · obtain ⟨q, hq⟩ := part_value m0 s hs I hI ((1 - alpha) * D) (mul_pos (by linarith) hpos) (by
      rw [← hD]
      nlinarith)
    have hsub : condReject m0 s alpha I ⊆ I ∩ Ioi q := by
      rintro x ⟨hx, hlt⟩
      refine ⟨hx, ?_⟩
      by_contra hle
      have hle : x ≤ q := not_lt.1 hle
      have : (normalLaw m0 s).real (I ∩ Iic x) ≤ (normalLaw m0 s).real (I ∩ Iic q) :=
        measureReal_mono (inter_subset_inter_right _ (Iic_subset_Iic.2 hle))
      linarith
    refine (measureReal_mono hsub).trans ?_
    have hmlr := mlr μ m0 s hs hμ q (I ∩ Iic q) (I ∩ Ioi q) (hI.inter measurableSet_Iic) (hI.inter measurableSet_Ioi)
      (fun x hx => hx.2) (fun x hx => le_of_lt (show q < x from hx.2))
    have h0 := split_at m0 s I q
    have h1 := split_at μ s I q
    set a := (normalLaw μ s).real (I ∩ Ioi q)
    set b := (normalLaw μ s).real (I ∩ Iic q)
    have e : (normalLaw m0 s).real (I ∩ Ioi q) = alpha * D := by rw [hq, ← hD] at h0; linarith
    rw [hq, e] at hmlr
    have h2 : (a * (1 - alpha)) * D ≤ (b * alpha) * D := by linarith
    have h3 := le_of_mul_le_mul_right h2 hpos
    rw [h1]
    linarith
  · have : condReject m0 s alpha I = ∅ := by
      ext x
      simp only [condReject, mem_ofPred_eq, mem_empty_iff_false, iff_false, not_and, not_lt]
      intro _
      have hD0 : D = 0 := hD.trans hz.symm
      have := measureReal_mono (μ := normalLaw m0 s) (inter_subset_left (s := I) (t := Iic x))
      have hI0 : (normalLaw m0 s).real I = 0 := hz.symm
      rw [hI0, mul_zero]
      linarith
    rw [this, measureReal_empty]
    exact mul_nonneg ha0.le measureReal_nonneg

/-- The rejection region in the plane of statistic and residual is measurable. -/
theorem condReject_meas {Z : Type*} [MeasurableSpace Z] (m0 s alpha : ℝ) (I : Set (ℝ × Z)) (hI : MeasurableSet I) :
    MeasurableSet {w : ℝ × Z | w.1 ∈ condReject m0 s alpha ((fun x => (x, w.2)) ⁻¹' I)} := by
  have hJ : MeasurableSet {u : ℝ × (ℝ × Z) | (u.1, u.2.2) ∈ I ∧ u.1 ≤ u.2.1} := by
    have a1 : MeasurableSet {u : ℝ × (ℝ × Z) | (u.1, u.2.2) ∈ I} :=
      hI.preimage (measurable_fst.prodMk (measurable_snd.comp measurable_snd))
    have a2 : MeasurableSet {u : ℝ × (ℝ × Z) | u.1 ≤ u.2.1} := measurableSet_le measurable_fst (measurable_fst.comp measurable_snd)
    exact a1.inter a2
  have f1 : Measurable fun w : ℝ × Z => (normalLaw m0 s).real ((fun x => (x, w.2)) ⁻¹' I) :=
    ((measurable_measure_prodMk_right hI).comp measurable_snd).ennreal_toReal
  have f2 : Measurable fun w : ℝ × Z => (normalLaw m0 s).real ((fun x => (x, w.2)) ⁻¹' I ∩ Iic w.1) := by
    have := (measurable_measure_prodMk_right (μ := normalLaw m0 s) hJ).ennreal_toReal
    exact this
  have : {w : ℝ × Z | w.1 ∈ condReject m0 s alpha ((fun x => (x, w.2)) ⁻¹' I)} =
      I ∩ {w | (1 - alpha) * (normalLaw m0 s).real ((fun x => (x, w.2)) ⁻¹' I) <
        (normalLaw m0 s).real ((fun x => (x, w.2)) ⁻¹' I ∩ Iic w.1)} := by
    ext w
    rfl
  rw [this]
  exact hI.inter (measurableSet_lt (f1.const_mul _) f2)

/-- One linear form `g` of normal data: a selection event in the statistic `g'y` and the residual, and the rejection region. -/
theorem core_gen (n : ℕ) (ν : Measure (Fin n → ℝ)) (beta : ℕ → ℝ) (sigma : ℕ → ℕ → ℝ) (g : ℕ → ℝ) (alpha : ℝ)
    (h : CoefLaw n ν beta sigma) (hpsd : ∀ c, 0 ≤ quadForm n c sigma) (hs : ∀ i < n, ∀ j < n, sigma i j = sigma j i)
    (hv : 0 < quadForm n g sigma) (m0 : ℝ) (hnull : dotN n g beta ≤ m0) (ha0 : 0 < alpha) (ha1 : alpha < 1)
    (I : Set (ℝ × (Fin n → ℝ))) (hI : MeasurableSet I) :
    ν {v | dotN n g (extV n v) ∈ condReject m0 (Real.sqrt (quadForm n g sigma)) alpha ((fun x => (x, resVec n sigma g v)) ⁻¹' I)} ≤
      ENNReal.ofReal alpha * ν {v | (dotN n g (extV n v), resVec n sigma g v) ∈ I} := by
  have hprob := coefLaw_prob n ν beta sigma h
  set s := Real.sqrt (quadForm n g sigma) with hsdef
  have hs0 : 0 < s := Real.sqrt_pos.2 hv
  have hs2 : s ^ 2 = quadForm n g sigma := Real.sq_sqrt hv.le
  set X : (Fin n → ℝ) → ℝ := fun v => dotN n g (extV n v) with hX
  set Z := resVec n sigma g with hZ
  have hXm : Measurable X := dot_meas n _
  have hZm : Measurable Z := resVec_meas n sigma _
  have hmapX : ν.map X = normalLaw (dotN n g beta) s := by
    rw [hX, h g, ← hs2]
    rfl
  have hprod : ν.map (fun v => (X v, Z v)) = (ν.map X).prod (ν.map Z) :=
    (stat_indep n ν beta sigma h hpsd hs g (by rw [etaSigmaEta_quad]; exact hv.ne')).map_prod_eq_prod_map_map hXm.aemeasurable
      hZm.aemeasurable
  have hmeas : ∀ T : Set (ℝ × (Fin n → ℝ)), MeasurableSet T → ν {v | (X v, Z v) ∈ T} =
      ∫⁻ z, normalLaw (dotN n g beta) s ((fun x => (x, z)) ⁻¹' T) ∂(ν.map Z) := by
    intro T hT
    have e : ν {v | (X v, Z v) ∈ T} = (ν.map fun v => (X v, Z v)) T :=
      (Measure.map_apply (hXm.prodMk hZm) hT).symm
    have : IsProbabilityMeasure (ν.map Z) := Measure.isProbabilityMeasure_map hZm.aemeasurable
    have : IsProbabilityMeasure (ν.map X) := Measure.isProbabilityMeasure_map hXm.aemeasurable
    rw [e, hprod, Measure.prod_apply_symm hT, hmapX]
  have hR := condReject_meas m0 s alpha I hI
  have e1 : {v | X v ∈ condReject m0 s alpha ((fun x => (x, Z v)) ⁻¹' I)} =
      {v | (X v, Z v) ∈ {w : ℝ × (Fin n → ℝ) | w.1 ∈ condReject m0 s alpha ((fun x => (x, w.2)) ⁻¹' I)}} := rfl
  rw [e1, hmeas _ hR, hmeas _ hI, ← lintegral_const_mul _ (measurable_measure_prodMk_right hI)]
  refine lintegral_mono fun z => ?_
  have hsec := section_gen (dotN n g beta) m0 s alpha hs0 hnull ha0 ha1 ((fun x => (x, z)) ⁻¹' I) (hI.preimage measurable_prodMk_right)
  have conv : ∀ W : Set ℝ, normalLaw (dotN n g beta) s W = ENNReal.ofReal ((normalLaw (dotN n g beta) s).real W) :=
    fun W => (ofReal_measureReal (measure_ne_top _ _)).symm
  beta_reduce
  rw [conv, conv ((fun x => (x, z)) ⁻¹' I), ← ENNReal.ofReal_mul ha0.le]
  exact ENNReal.ofReal_le_ofReal hsec

/-- A truncation point divided by the standard deviation; infinities and NaN are unchanged. -/
noncomputable def Bnd.scale (s : ℝ) : Bnd ℝ → Bnd ℝ
  | Bnd.fin x => Bnd.fin (x / s)
  | b => b

/-- The critical value of the code against the exact region: if the truncation points are the ends of the selection event, a
statistic in the event above the critical value lies in the rejection region. -/
theorem crit_gen (s alpha x : ℝ) (hs : 0 < s) (ha0 : 0 < alpha) (ha1 : alpha < 1) (lo up : Bnd ℝ) (hl : lo ≠ Bnd.nan) (hu : up ≠ Bnd.nan)
    (I : Set ℝ) (h1 : truncOpen lo up ⊆ I) (h2 : I ⊆ truncSet lo up) (hx : x ∈ I) (c : Ext)
    (hc : norminvp (1 - alpha) (lo.scale s) (up.scale s) 0 1 = some c) (hb : c.below (x / s)) : x ∈ condReject 0 s alpha I := by
  refine ⟨hx, ?_⟩
  have hxt := h2 hx
  have hlo' : lo.scale s ≠ Bnd.nan := by cases lo <;> simp_all [Bnd.scale]
  have hup' : up.scale s ≠ Bnd.nan := by cases up <;> simp_all [Bnd.scale]
  have hxs : x / s ∈ truncSet (lo.scale s) (up.scale s) := by
    refine ⟨?_, ?_⟩
    · have := hxt.1
      cases lo with
      | infinite => trivial
      | nan => exact absurd rfl hl
      | fin l => exact div_le_div_of_nonneg_right this hs.le
    · have := hxt.2
      cases up with
      | infinite => trivial
      | nan => exact absurd rfl hu
      | fin u => exact div_le_div_of_nonneg_right this hs.le
  rcases proper_or lo up hl hu with hP | ⟨l, u, rfl, rfl, hlu⟩
  · have hcb := crit_below (1 - alpha) 0 1 (x / s) (by linarith) (by linarith) one_pos _ _ hlo' hup' hxs c hc hb
    have e : pTrunc (1 - alpha) 0 1 (lo.scale s) (up.scale s) = pTrunc (1 - alpha) 0 s lo up := by
      unfold pTrunc
      have a : cdfLower 0 1 (lo.scale s) = cdfLower 0 s lo := by cases lo <;> simp [Bnd.scale, cdfLower]
      have b : cdfUpper 0 1 (up.scale s) = cdfUpper 0 s up := by cases up <;> simp [Bnd.scale, cdfUpper]
      rw [a, b]
    rw [e] at hcb
    have hD : (normalLaw 0 s).real I = cdfUpper 0 s up - cdfLower 0 s lo := by
      rw [← (trunc_total 0 s hs lo up hP).1]
      have := between_mass 0 s hs lo up I univ h1 h2
      simpa using this
    rw [hD, between_mass 0 s hs lo up I (Iic x) h1 h2, trunc_mass 0 s hs lo up hP x hxt]
    unfold pTrunc at hcb
    simp only [sub_zero, div_one] at hcb ⊢
    linarith
  · exfalso
    have a1 : l ≤ x := hxt.1
    have a2 : x ≤ u := hxt.2
    have e1 : x = l := le_antisymm (by linarith) a1
    have e2 : u = l := le_antisymm hlu (by linarith)
    subst e2
    subst e1
    simp only [Bnd.scale] at hc
    rw [C155_point (1 - alpha) 0 1 (x / s) one_pos] at hc
    simp only [Option.some.injEq] at hc
    subst hc
    exact absurd (show x / s < x / s from hb) (lt_irrefl _)

end Verif.Honest
