import Verif.Honest.ArpModel

/-!
# C155: the truncated-normal critical value (`_norminvp_generalized`, `conditional.py:187-247`)
-/

set_option linter.unusedSectionVars false
set_option linter.unusedSimpArgs false

namespace Verif.Honest

open MeasureTheory ProbabilityTheory Set Filter Topology

/-! ## Specification -/

/-- The law `N(mu, sd^2)`. -/
noncomputable def normalLaw (mu sd : ℝ) : Measure ℝ := gaussianReal mu (sd ^ 2).toNNReal

/-- Not below the lower truncation point (minus infinity if infinite). -/
def Bnd.okLow (x : ℝ) : Bnd ℝ → Prop
  | Bnd.infinite => True
  | Bnd.nan => False
  | Bnd.fin l => l ≤ x

/-- Not above the upper truncation point (plus infinity if infinite). -/
def Bnd.okUp (x : ℝ) : Bnd ℝ → Prop
  | Bnd.infinite => True
  | Bnd.nan => False
  | Bnd.fin u => x ≤ u

/-- The truncation interval. -/
def truncSet (lo up : Bnd ℝ) : Set ℝ := {x | lo.okLow x ∧ up.okUp x}

/-- The truncation points are numbers or infinite, and in order. -/
def Proper (lo up : Bnd ℝ) : Prop := lo ≠ Bnd.nan ∧ up ≠ Bnd.nan ∧ ∀ l u, lo = Bnd.fin l → up = Bnd.fin u → l < u

/-! ## Lemmas -/

theorem normalLaw_map (m s : ℝ) : normalLaw m s = (gaussianReal 0 1).map (fun t => m + s * t) := by
  unfold normalLaw
  have e := gaussianReal_map_const_mul (μ := 0) (v := 1) s
  have e2 := gaussianReal_map_const_add (μ := s * 0) (v := NNReal.mk (s ^ 2) (sq_nonneg _) * 1) m
  rw [← e, Measure.map_map (by fun_prop) (by fun_prop)] at e2
  have e3 : s * 0 + m = m := by ring
  have e4 : (NNReal.mk (s ^ 2) (sq_nonneg _) * 1 : NNReal) = (s ^ 2).toNNReal := by
    rw [mul_one]
    ext
    simp [Real.coe_toNNReal _ (sq_nonneg s)]
  rw [e3, e4] at e2
  exact e2.symm

instance (m s : ℝ) : IsProbabilityMeasure (normalLaw m s) := by unfold normalLaw; infer_instance

theorem var_ne (s : ℝ) (hs : 0 < s) : (s ^ 2).toNNReal ≠ 0 := by
  have : 0 < s ^ 2 := by positivity
  simp only [ne_eq, Real.toNNReal_eq_zero, not_le, this]

theorem normalLaw_noAtoms (m s : ℝ) (hs : 0 < s) (x : ℝ) : normalLaw m s {x} = 0 := by
  have := nullSingletonClass_gaussianReal (μ := m) (v := (s ^ 2).toNNReal) (var_ne s hs)
  unfold normalLaw
  exact measure_singleton x

theorem normalLaw_Iic (m s : ℝ) (hs : 0 < s) (x : ℝ) : (normalLaw m s).real (Iic x) = Phi ((x - m) / s) := by
  rw [normalLaw_map, map_measureReal_apply (by fun_prop) measurableSet_Iic]
  unfold Phi
  congr 1
  ext t
  simp only [mem_preimage, mem_Iic, le_div_iff₀ hs]
  constructor <;> intro h <;> linarith

theorem normalLaw_Iio (m s : ℝ) (hs : 0 < s) (x : ℝ) : (normalLaw m s).real (Iio x) = Phi ((x - m) / s) := by
  rw [← normalLaw_Iic m s hs]
  have := nullSingletonClass_gaussianReal (μ := m) (v := (s ^ 2).toNNReal) (var_ne s hs)
  unfold Measure.real normalLaw
  rw [measure_congr (Iio_ae_eq_Iic (a := x))]

theorem normalLaw_Icc (m s : ℝ) (hs : 0 < s) (x y : ℝ) (h : x ≤ y) :
    (normalLaw m s).real (Icc x y) = Phi ((y - m) / s) - Phi ((x - m) / s) := by
  have e : Icc x y = Iic y \ Iio x := by
    ext t
    simp only [mem_Icc, mem_diff, mem_Iic, mem_Iio, not_lt]
    tauto
  have hsub : Iio x ⊆ Iic y := fun t ht => le_of_lt (lt_of_lt_of_le ht h)
  rw [e, measureReal_diff hsub measurableSet_Iio, normalLaw_Iic m s hs, normalLaw_Iio m s hs]

theorem normalLaw_Ici (m s : ℝ) (hs : 0 < s) (x : ℝ) : (normalLaw m s).real (Ici x) = 1 - Phi ((x - m) / s) := by
  rw [← compl_Iio, probReal_compl_eq_one_sub measurableSet_Iio, normalLaw_Iio m s hs]

theorem phi_lt_one (x : ℝ) : Phi x < 1 := by
  have h1 := phi_strictMono (show x < x + 1 by linarith)
  have h2 : Phi (x + 1) ≤ 1 := measureReal_le_one
  linarith

theorem phi_pos (x : ℝ) : 0 < Phi x := by
  have h1 := phi_strictMono (show x - 1 < x by linarith)
  have h2 := phi_nonneg (x - 1)
  linarith

theorem phi_ppf (p : ℝ) (h0 : 0 < p) (h1 : p < 1) : Phi (ppf p) = p := by
  unfold ppf
  refine Function.invFun_eq ?_
  have ha := (phi_bot.eventually (gt_mem_nhds h0)).exists
  have hb := (phi_top.eventually (lt_mem_nhds h1)).exists
  obtain ⟨a, ha⟩ := ha
  obtain ⟨b, hb⟩ := hb
  have hab : a ≤ b := by
    by_contra hc
    have := phi_mono (le_of_lt (not_le.1 hc))
    linarith
  obtain ⟨x, _, hx⟩ := intermediate_value_Icc hab phi_continuous.continuousOn ⟨ha.le, hb.le⟩
  exact ⟨x, hx⟩

theorem ppf_lt (p x : ℝ) (h0 : 0 < p) (h1 : p < 1) : ppf p < x ↔ p < Phi x := by
  rw [← phi_strictMono.lt_iff_lt, phi_ppf p h0 h1]

theorem lt_ppf (p x : ℝ) (h0 : 0 < p) (h1 : p < 1) : x < ppf p ↔ Phi x < p := by
  rw [← phi_strictMono.lt_iff_lt, phi_ppf p h0 h1]

/-- Mass of the truncation interval up to `r`. -/
theorem trunc_mass (m s : ℝ) (hs : 0 < s) (lo up : Bnd ℝ) (h : Proper lo up) (r : ℝ) (hr : r ∈ truncSet lo up) :
    (normalLaw m s).real (truncSet lo up ∩ Iic r) = Phi ((r - m) / s) - cdfLower m s lo := by
  obtain ⟨hl, hu⟩ := hr
  have e : truncSet lo up ∩ Iic r = {x | lo.okLow x ∧ x ≤ r} := by
    ext x
    simp only [truncSet, mem_inter_iff, mem_setOf_eq, mem_Iic]
    constructor
    · rintro ⟨⟨a, _⟩, b⟩; exact ⟨a, b⟩
    · rintro ⟨a, b⟩
      refine ⟨⟨a, ?_⟩, b⟩
      cases up with
      | infinite => trivial
      | nan => exact hu
      | fin u => exact le_trans b hu
  rw [e]
  cases lo with
  | infinite =>
    have : {x : ℝ | (Bnd.infinite : Bnd ℝ).okLow x ∧ x ≤ r} = Iic r := by ext x; simp [Bnd.okLow]
    rw [this, normalLaw_Iic m s hs]
    simp [cdfLower]
  | nan => exact absurd rfl h.1
  | fin l =>
    have : {x : ℝ | (Bnd.fin l : Bnd ℝ).okLow x ∧ x ≤ r} = Icc l r := by ext x; simp [Bnd.okLow]
    rw [this, normalLaw_Icc m s hs _ _ hl]
    rfl

theorem trunc_total (m s : ℝ) (hs : 0 < s) (lo up : Bnd ℝ) (h : Proper lo up) :
    (normalLaw m s).real (truncSet lo up) = cdfUpper m s up - cdfLower m s lo ∧ cdfLower m s lo < cdfUpper m s up := by
  cases lo with
  | nan => exact absurd rfl h.1
  | infinite =>
    cases up with
    | nan => exact absurd rfl h.2.1
    | infinite =>
      have : truncSet Bnd.infinite Bnd.infinite = univ := by ext x; simp [truncSet, Bnd.okLow, Bnd.okUp]
      rw [this, probReal_univ]
      simp [cdfUpper, cdfLower]
    | fin u =>
      have : truncSet Bnd.infinite (Bnd.fin u) = Iic u := by ext x; simp [truncSet, Bnd.okLow, Bnd.okUp]
      rw [this, normalLaw_Iic m s hs]
      exact ⟨by simp [cdfUpper, cdfLower], phi_pos _⟩
  | fin l =>
    cases up with
    | nan => exact absurd rfl h.2.1
    | infinite =>
      have : truncSet (Bnd.fin l) Bnd.infinite = Ici l := by ext x; simp [truncSet, Bnd.okLow, Bnd.okUp]
      rw [this, normalLaw_Ici m s hs]
      exact ⟨rfl, phi_lt_one _⟩
    | fin u =>
      have hlu := h.2.2 l u rfl rfl
      have : truncSet (Bnd.fin l) (Bnd.fin u) = Icc l u := by ext x; simp [truncSet, Bnd.okLow, Bnd.okUp]
      rw [this, normalLaw_Icc m s hs _ _ hlu.le]
      exact ⟨rfl, phi_strictMono (div_lt_div_of_pos_right (by linarith) hs)⟩

theorem cdfLower_nonneg (m s : ℝ) (lo : Bnd ℝ) : 0 ≤ cdfLower m s lo := by
  cases lo <;> simp [cdfLower, phi_nonneg]

theorem cdfUpper_le (m s : ℝ) (up : Bnd ℝ) : cdfUpper m s up ≤ 1 := by
  cases up <;> simp [cdfUpper, (phi_lt_one _).le]

/-- The interpolated probability of `conditional.py:240`. -/
noncomputable def pTrunc (p m s : ℝ) (lo up : Bnd ℝ) : ℝ := cdfLower m s lo + p * (cdfUpper m s up - cdfLower m s lo)

theorem pTrunc_between (p m s : ℝ) (hp0 : 0 < p) (hp1 : p < 1) (hs : 0 < s) (lo up : Bnd ℝ) (h : Proper lo up) :
    cdfLower m s lo < pTrunc p m s lo up ∧ pTrunc p m s lo up < cdfUpper m s up ∧ 0 < pTrunc p m s lo up ∧ pTrunc p m s lo up < 1 := by
  have h1 := (trunc_total m s hs lo up h).2
  have h2 := cdfLower_nonneg m s lo
  have h3 := cdfUpper_le m s up
  unfold pTrunc
  have h4 : 0 < p * (cdfUpper m s up - cdfLower m s lo) := mul_pos hp0 (by linarith)
  have h5 : 0 < (1 - p) * (cdfUpper m s up - cdfLower m s lo) := mul_pos (by linarith) (by linarith)
  refine ⟨by linarith, by linarith, by linarith, by linarith⟩

/-- In the regular case the value is `mu + sd * ppf(p_trunc)` whatever the bounds. -/
theorem norminvp_eq (p m s : ℝ) (hp0 : 0 < p) (hp1 : p < 1) (hs : 0 < s) (lo up : Bnd ℝ) (h : Proper lo up) :
    norminvp p lo up m s = some (Ext.fin (m + s * ppf (pTrunc p m s lo up))) := by
  unfold norminvp
  rw [if_neg (not_le.2 hs), if_neg (not_le.2 hp0), if_neg (not_le.2 hp1)]
  by_cases hi : lo = Bnd.infinite ∧ up = Bnd.infinite
  · rw [if_pos hi, hi.1, hi.2]
    simp [pTrunc, cdfLower, cdfUpper]
  · rw [if_neg hi, if_neg (not_or.2 ⟨h.1, h.2.1⟩)]
    have hb := pTrunc_between p m s hp0 hp1 hs lo up h
    dsimp only
    change (if pTrunc p m s lo up ≤ cdfLower m s lo then _ else if cdfUpper m s up ≤ pTrunc p m s lo up then _ else _) = _
    rw [if_neg (not_le.2 hb.1), if_neg (not_le.2 hb.2.1)]
    rfl

/-! ## C155 -/

/-- C155.  For `0 < p < 1`, `sd > 0` and truncation points in order, the result is the `p`-quantile of `N(mu, sd^2)` truncated to
them: it lies in the truncation interval, and it leaves exactly the fraction `p` of the (positive) probability of the interval on
its left. -/
theorem C155_quantile (p m s : ℝ) (hp0 : 0 < p) (hp1 : p < 1) (hs : 0 < s) (lo up : Bnd ℝ) (h : Proper lo up) :
    ∃ r, norminvp p lo up m s = some (Ext.fin r) ∧ r ∈ truncSet lo up ∧ 0 < (normalLaw m s).real (truncSet lo up) ∧
      (normalLaw m s).real (truncSet lo up ∩ Iic r) = p * (normalLaw m s).real (truncSet lo up) := by
  obtain ⟨h1, h2, h3, h4⟩ := pTrunc_between p m s hp0 hp1 hs lo up h
  have ht := trunc_total m s hs lo up h
  have hphi : Phi ((m + s * ppf (pTrunc p m s lo up) - m) / s) = pTrunc p m s lo up := by
    have : (m + s * ppf (pTrunc p m s lo up) - m) / s = ppf (pTrunc p m s lo up) := by
      field_simp
      ring
    rw [this, phi_ppf _ h3 h4]
  have hin : m + s * ppf (pTrunc p m s lo up) ∈ truncSet lo up := by
    constructor
    · cases lo with
      | infinite => trivial
      | nan => exact absurd rfl h.1
      | fin l =>
        have : Phi ((l - m) / s) < pTrunc p m s (Bnd.fin l) up := h1
        rw [← lt_ppf _ _ h3 h4, div_lt_iff₀ hs] at this
        show l ≤ _
        linarith
    · cases up with
      | infinite => trivial
      | nan => exact absurd rfl h.2.1
      | fin u =>
        have : pTrunc p m s lo (Bnd.fin u) < Phi ((u - m) / s) := h2
        rw [← ppf_lt _ _ h3 h4, lt_div_iff₀ hs] at this
        show _ ≤ u
        linarith
  refine ⟨_, norminvp_eq p m s hp0 hp1 hs lo up h, hin, by rw [ht.1]; linarith, ?_⟩
  rw [trunc_mass m s hs lo up h _ hin, hphi, ht.1]
  unfold pTrunc
  ring

/-- C155.  At and beyond the ends: `p <= 0` gives the lower truncation point and `p >= 1` the upper one (infinite if there is
none); a non-positive `sd` is an error, whatever the rest. -/
theorem C155_edges (p m s : ℝ) (lo up : Bnd ℝ) :
    (s ≤ 0 → norminvp p lo up m s = none) ∧
    (0 < s → p ≤ 0 → norminvp p lo up m s = some lo.asLower) ∧
    (0 < s → 1 ≤ p → norminvp p lo up m s = some up.asUpper) := by
  refine ⟨fun h => by simp [norminvp, h], fun h h0 => by simp [norminvp, not_le.2 h, h0], fun h h1 => ?_⟩
  have : ¬ p ≤ 0 := by linarith
  simp [norminvp, not_le.2 h, this, h1]

/-- C155.  A single point `lower = upper`: that point is returned for every `p`. -/
theorem C155_point (p m s x : ℝ) (hs : 0 < s) : norminvp p (Bnd.fin x) (Bnd.fin x) m s = some (Ext.fin x) := by
  unfold norminvp
  rw [if_neg (not_le.2 hs)]
  split_ifs with h1 h2 h3 h4
  · rfl
  · rfl
  · exact absurd h3.1 (by simp)
  · rcases h4 with h4 | h4 <;> exact absurd h4 (by simp)
  · simp [cdfLower, cdfUpper, Bnd.asLower]

/-- C155.  The critical value is strictly increasing in `p`. -/
theorem C155_mono (p p' m s r r' : ℝ) (hp0 : 0 < p) (hpp : p < p') (hp1 : p' < 1) (hs : 0 < s) (lo up : Bnd ℝ) (h : Proper lo up)
    (hr : norminvp p lo up m s = some (Ext.fin r)) (hr' : norminvp p' lo up m s = some (Ext.fin r')) : r < r' := by
  have h1 := pTrunc_between p m s hp0 (hpp.trans hp1) hs lo up h
  have h2 := pTrunc_between p' m s (hp0.trans hpp) hp1 hs lo up h
  have ht := (trunc_total m s hs lo up h).2
  rw [norminvp_eq p m s hp0 (hpp.trans hp1) hs lo up h] at hr
  rw [norminvp_eq p' m s (hp0.trans hpp) hp1 hs lo up h] at hr'
  simp only [Option.some.injEq, Ext.fin.injEq] at hr hr'
  subst hr
  subst hr'
  have : pTrunc p m s lo up < pTrunc p' m s lo up := by
    unfold pTrunc
    have := mul_lt_mul_of_pos_right hpp (sub_pos.2 ht)
    linarith
  have h3 : ppf (pTrunc p m s lo up) < ppf (pTrunc p' m s lo up) := by
    rw [ppf_lt _ _ h1.2.2.1 h1.2.2.2, phi_ppf _ h2.2.2.1 h2.2.2.2]
    exact this
  have := mul_lt_mul_of_pos_left h3 hs
  linarith

/-- C155 (violated).  A NaN truncation point (produced by the interpreted `compute_bounds`, C64) gives a NaN critical value; the
caller's `max(0, nan)` is `0`, so that every positive moment is rejected, whatever the level. -/
theorem C155_nan_violated (p m s mm : ℝ) (hp0 : 0 < p) (hp1 : p < 1) (hs : 0 < s) (up : Bnd ℝ) (h : 0 < mm) :
    norminvp p Bnd.nan up m s = some Ext.nan ∧ Ext.nan.max0.below mm := by
  constructor
  · unfold norminvp
    rw [if_neg (not_le.2 hs), if_neg (not_le.2 hp0), if_neg (not_le.2 hp1), if_neg (by simp), if_pos (Or.inl rfl)]
  · exact h

/-- `N(1, 4)` truncated to `[0, 3]`: the hypotheses hold. -/
example : ∃ r, norminvp (19 / 20) (Bnd.fin 0) (Bnd.fin 3) 1 2 = some (Ext.fin r) ∧ 0 ≤ r ∧ r ≤ 3 := by
  obtain ⟨r, h1, h2, _⟩ := C155_quantile (19 / 20) 1 2 (by norm_num) (by norm_num) (by norm_num) (Bnd.fin 0) (Bnd.fin 3)
    ⟨by simp, by simp, by
      intro l u hl hu
      simp only [Bnd.fin.injEq] at hl hu
      subst hl
      subst hu
      norm_num⟩
  exact ⟨r, h1, h2.1, h2.2⟩

end Verif.Honest
