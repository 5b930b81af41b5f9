import Mathlib.Probability.Distributions.Gaussian.Real
import Mathlib.Probability.CDF
import Mathlib.MeasureTheory.Integral.IntervalIntegral.Basic
import Mathlib.Analysis.SpecialFunctions.Pow.Real

/-!
# C152: quantiles of the folded normal distribution (`fixed_length_ci.py:483-553,869-871`)

`scipy.stats.norm.cdf` is the distribution function of Mathlib's standard Gaussian; `halfnorm.ppf` and `brentq` are oracles with
their documented contracts.
-/

set_option linter.unusedSectionVars false
set_option linter.unusedSimpArgs false

namespace Verif.Honest

open MeasureTheory ProbabilityTheory Set Filter Topology

/-! ## Model -/

/-- `stats.norm.cdf`. -/
noncomputable def Phi (x : ℝ) : ℝ := (gaussianReal 0 1).real (Iic x)

/-- `_folded_normal_cdf`, `fixed_length_ci.py:869-871`. -/
noncomputable def foldedCdf (x mu sd p : ℝ) : ℝ := Phi ((x - mu) / sd) - Phi ((-x - mu) / sd) - p

open Classical in
/-- The `while` loop doubling `upper_bracket`, `fixed_length_ci.py:550-551`; `none` = the fuel ran out. -/
noncomputable def bracketLoop (p mu sd : ℝ) : ℕ → ℝ → Option ℝ
  | 0, _ => none
  | fuel + 1, u => if foldedCdf u mu sd 0 - p < 0 then bracketLoop p mu sd fuel (u * 2) else some u

/-- Contract of `scipy.stats.halfnorm.ppf(p) = y`. -/
def HalfnormPpf (p y : ℝ) : Prop := 0 ≤ y ∧ 2 * Phi y - 1 = p

/-- Contract of `scipy.optimize.brentq(f, a, b) = r`: the signs at the ends differ (otherwise it raises) and `r` is a root. -/
def Brentq (f : ℝ → ℝ) (a b r : ℝ) : Prop := f a * f b ≤ 0 ∧ a ≤ r ∧ r ≤ b ∧ f r = 0

/-- `folded_normal_quantile(p, mu, sd) = r`, `fixed_length_ci.py:541-553`. -/
def FoldedQuantile (p mu sd r : ℝ) : Prop :=
  0 < sd ∧ ((|mu| = 0 ∧ ∃ y, HalfnormPpf p y ∧ r = sd * y) ∨
    (|mu| ≠ 0 ∧ ∃ fuel u, bracketLoop p |mu| sd fuel (|mu| + 8 * sd) = some u ∧
      Brentq (fun x => foldedCdf x |mu| sd p) 0 u r))

/-! ## Specification -/

/-- Probability that a normal variable with mean `m` and standard deviation `s` is at most `c` in absolute value. -/
noncomputable def absNormal (m s c : ℝ) : ℝ := (gaussianReal m (s ^ 2).toNNReal).real (Icc (-c) c)

/-! ## The standard normal distribution function -/

theorem phi_sub (x y : ℝ) (h : x ≤ y) : Phi y - Phi x = ∫ t in x..y, gaussianPDFReal 0 1 t := by
  unfold Phi
  have hd : Iic y \ Iic x = Ioc x y := by
    ext t
    simp [and_comm]
  rw [← measureReal_diff (Iic_subset_Iic.2 h) measurableSet_Iic, hd, intervalIntegral.integral_of_le h, Measure.real,
    gaussianReal_apply_eq_integral 0 one_ne_zero, ENNReal.toReal_ofReal]
  exact setIntegral_nonneg measurableSet_Ioc fun t _ => gaussianPDFReal_nonneg 0 1 t

theorem pdf_cont : Continuous (gaussianPDFReal 0 1) := by
  rw [gaussianPDFReal_def]
  fun_prop

theorem pdf_int (x y : ℝ) : IntervalIntegrable (gaussianPDFReal 0 1) volume x y := pdf_cont.intervalIntegrable x y

theorem phi_strictMono : StrictMono Phi := by
  intro x y h
  have := intervalIntegral.intervalIntegral_pos_of_pos (pdf_int x y) (fun t => gaussianPDFReal_pos 0 1 t one_ne_zero) h
  rw [← phi_sub x y h.le] at this
  linarith

theorem phi_mono : Monotone Phi := phi_strictMono.monotone

theorem phi_nonneg (x : ℝ) : 0 ≤ Phi x := measureReal_nonneg

theorem phi_eq_cdf : Phi = cdf (gaussianReal 0 1) := by
  funext x
  rw [cdf_eq_real]
  rfl

theorem phi_top : Tendsto Phi atTop (𝓝 1) := by
  rw [phi_eq_cdf]
  exact tendsto_cdf_atTop _

theorem phi_bot : Tendsto Phi atBot (𝓝 0) := by
  rw [phi_eq_cdf]
  exact tendsto_cdf_atBot _

theorem phi_neg (x : ℝ) : Phi (-x) = 1 - Phi x := by
  have h1 : (gaussianReal 0 1).map (fun t => -t) = gaussianReal 0 1 := by
    rw [gaussianReal_map_neg, neg_zero]
  have h2 : Phi (-x) = (gaussianReal 0 1).real (Ici x) := by
    unfold Phi
    conv_lhs => rw [← h1]
    rw [map_measureReal_apply measurable_neg measurableSet_Iic]
    congr 1
    ext t
    simp
  have := nullSingletonClass_gaussianReal (μ := 0) (v := 1) one_ne_zero
  have h3 : (gaussianReal 0 1).real (Ici x) = (gaussianReal 0 1).real (Ioi x) := by
    unfold Measure.real
    rw [measure_congr (Ioi_ae_eq_Ici (a := x) (μ := gaussianReal 0 1)).symm]
  rw [h2, h3, ← compl_Iic, probReal_compl_eq_one_sub measurableSet_Iic]
  rfl

theorem phi_zero : Phi 0 = 1 / 2 := by
  have := phi_neg 0
  rw [neg_zero] at this
  linarith

theorem phi_continuous : Continuous Phi := by
  have h : Phi = fun x => Phi 0 + ∫ t in (0 : ℝ)..x, gaussianPDFReal 0 1 t := by
    funext x
    rcases le_total 0 x with hx | hx
    · rw [← phi_sub 0 x hx]; ring
    · rw [intervalIntegral.integral_symm, ← phi_sub x 0 hx]; ring
  rw [h]
  exact continuous_const.add (intervalIntegral.continuous_primitive (fun a b => pdf_int a b) 0)

/-! ## Probabilities of symmetric intervals -/

theorem absNormal_eq (m s c : ℝ) (hs : 0 < s) (hc : 0 ≤ c) : absNormal m s c = foldedCdf c m s 0 := by
  unfold absNormal foldedCdf
  have h1 : gaussianReal m (s ^ 2).toNNReal = (gaussianReal 0 1).map (fun t => m + s * t) := by
    have e := gaussianReal_map_const_mul (μ := 0) (v := 1) s
    have e2 := gaussianReal_map_const_add (μ := s * 0) (v := NNReal.mk (s ^ 2) (sq_nonneg _) * 1) m
    rw [← e, Measure.map_map (by fun_prop) (by fun_prop)] at e2
    have e3 : s * 0 + m = m := by ring
    have e4 : (NNReal.mk (s ^ 2) (sq_nonneg _) * 1 : NNReal) = (s ^ 2).toNNReal := by
      rw [mul_one]
      ext
      simp [Real.coe_toNNReal _ (sq_nonneg s)]
    rw [e3, e4] at e2
    exact e2.symm
  have h2 : (fun t => m + s * t) ⁻¹' Icc (-c) c = Icc ((-c - m) / s) ((c - m) / s) := by
    ext t
    simp only [mem_preimage, mem_Icc, div_le_iff₀ hs, le_div_iff₀ hs]
    constructor <;> rintro ⟨a, b⟩ <;> constructor <;> linarith
  have hle : (-c - m) / s ≤ (c - m) / s := div_le_div_of_nonneg_right (by linarith) hs.le
  have := nullSingletonClass_gaussianReal (μ := 0) (v := 1) one_ne_zero
  rw [h1, map_measureReal_apply (by fun_prop) measurableSet_Icc, h2, sub_zero, phi_sub _ _ hle,
    intervalIntegral.integral_of_le hle]
  unfold Measure.real
  rw [measure_congr (Ioc_ae_eq_Icc (μ := gaussianReal 0 1)).symm, gaussianReal_apply_eq_integral 0 one_ne_zero,
    ENNReal.toReal_ofReal]
  exact setIntegral_nonneg measurableSet_Ioc fun t _ => gaussianPDFReal_nonneg 0 1 t

theorem folded_abs (c m s : ℝ) : foldedCdf c |m| s 0 = foldedCdf c m s 0 := by
  rcases abs_choice m with h | h
  · rw [h]
  · rw [h]
    unfold foldedCdf
    have e1 : (c - -m) / s = -((-c - m) / s) := by ring
    have e2 : (-c - -m) / s = -((c - m) / s) := by ring
    rw [e1, e2, phi_neg, phi_neg]
    ring

/-- The probability falls with the distance of the mean from zero. -/
theorem folded_anti (c s : ℝ) (hc : 0 ≤ c) (hs : 0 < s) (m m' : ℝ) (hm : 0 ≤ m) (hmm : m ≤ m') :
    foldedCdf c m' s 0 ≤ foldedCdf c m s 0 := by
  unfold foldedCdf
  have h1 : (c - m') / s ≤ (c - m) / s := div_le_div_of_nonneg_right (by linarith) hs.le
  have h2 : (-c - m') / s ≤ (-c - m) / s := div_le_div_of_nonneg_right (by linarith) hs.le
  have key : Phi ((-c - m) / s) - Phi ((-c - m') / s) ≤ Phi ((c - m) / s) - Phi ((c - m') / s) := by
    rw [phi_sub _ _ h1, phi_sub _ _ h2]
    have e : ∫ t in (-c - m') / s..(-c - m) / s, gaussianPDFReal 0 1 t =
        ∫ t in (c - m') / s..(c - m) / s, gaussianPDFReal 0 1 (t - 2 * c / s) := by
      rw [intervalIntegral.integral_comp_sub_right]
      congr 1 <;> ring
    rw [e]
    refine intervalIntegral.integral_mono_on h1 ?_ (pdf_int _ _) ?_
    · exact (pdf_cont.comp (continuous_id.sub continuous_const)).intervalIntegrable _ _
    · intro t ht
      have ht2 : t ≤ c / s := ht.2.trans (div_le_div_of_nonneg_right (by linarith) hs.le)
      have hcs : 0 ≤ c / s := div_nonneg hc hs.le
      simp only [gaussianPDFReal_def, NNReal.coe_one, mul_one, sub_zero]
      refine mul_le_mul_of_nonneg_left (Real.exp_le_exp.2 ?_) (by positivity)
      have e2 : 2 * c / s = 2 * (c / s) := by ring
      rw [e2]
      have := mul_nonneg hcs (sub_nonneg.2 ht2)
      nlinarith
  linarith

theorem absNormal_anti (c s : ℝ) (hc : 0 ≤ c) (hs : 0 < s) (m m' : ℝ) (hmm : |m| ≤ |m'|) :
    absNormal m' s c ≤ absNormal m s c := by
  rw [absNormal_eq _ _ _ hs hc, absNormal_eq _ _ _ hs hc, ← folded_abs c m, ← folded_abs c m']
  exact folded_anti c s hc hs _ _ (abs_nonneg _) hmm

/-- The probability falls with the spread, as long as the mean is inside the interval. -/
theorem absNormal_spread (c m s s' : ℝ) (hm : |m| ≤ c) (hs : 0 ≤ s) (hss : s ≤ s') (hs' : 0 < s') :
    absNormal m s' c ≤ absNormal m s c := by
  have hc : 0 ≤ c := (abs_nonneg _).trans hm
  have hb := abs_le.1 hm
  rcases hs.eq_or_lt with h0 | h0
  · rw [← h0]
    have : absNormal m 0 c = 1 := by
      unfold absNormal
      have e : ((0 : ℝ) ^ 2).toNNReal = 0 := by simp
      rw [e, gaussianReal_zero_var, Measure.real, Measure.dirac_apply' _ measurableSet_Icc]
      simp [indicator, hb.1, hb.2]
    rw [this]
    exact measureReal_le_one
  · rw [absNormal_eq _ _ _ hs' hc, absNormal_eq _ _ _ h0 hc]
    unfold foldedCdf
    have h1 : (c - m) / s' ≤ (c - m) / s := div_le_div_of_nonneg_left (by linarith) h0 hss
    have h2 : (-c - m) / s ≤ (-c - m) / s' := by
      have := div_le_div_of_nonneg_left (show 0 ≤ c + m by linarith) h0 hss
      have e1 : (-c - m) / s = -((c + m) / s) := by ring
      have e2 : (-c - m) / s' = -((c + m) / s') := by ring
      rw [e1, e2]
      linarith
    have := phi_mono h1
    have := phi_mono h2
    linarith

/-! ## C152 -/

theorem folded_strictMono (m s : ℝ) (hs : 0 < s) : StrictMono fun x => foldedCdf x m s 0 := by
  intro x y h
  simp only [foldedCdf]
  have h1 := phi_strictMono (div_lt_div_of_pos_right (show x - m < y - m by linarith) hs)
  have h2 := phi_strictMono (div_lt_div_of_pos_right (show -y - m < -x - m by linarith) hs)
  linarith

theorem folded_zero (m s : ℝ) : foldedCdf 0 m s 0 = 0 := by simp [foldedCdf]

theorem folded_cont (m s p : ℝ) : Continuous fun x => foldedCdf x m s p := by
  unfold foldedCdf
  exact ((phi_continuous.comp (by fun_prop)).sub (phi_continuous.comp (by fun_prop))).sub continuous_const

theorem folded_top (m s : ℝ) (hs : 0 < s) : Tendsto (fun x => foldedCdf x m s 0) atTop (𝓝 1) := by
  have h1 : Tendsto (fun x : ℝ => (x - m) / s) atTop atTop :=
    (tendsto_atTop_add_const_right atTop (-m) tendsto_id).atTop_div_const hs
  have h2 : Tendsto (fun x : ℝ => (-x - m) / s) atTop atBot := by
    have : Tendsto (fun x : ℝ => (x + m) / s) atTop atTop :=
      (tendsto_atTop_add_const_right atTop m tendsto_id).atTop_div_const hs
    have e : (fun x : ℝ => (-x - m) / s) = fun x => -((x + m) / s) := by
      funext x
      ring
    rw [e]
    exact tendsto_neg_atTop_atBot.comp this
  have := ((phi_top.comp h1).sub (phi_bot.comp h2)).sub_const 0
  simpa [foldedCdf, Function.comp_def] using this

/-- C152: the bracketing loop stops for every level below one, at a point where the distribution function has reached the
level. -/
theorem C152_bracket (p mu sd : ℝ) (hp : p < 1) (hs : 0 < sd) :
    ∃ fuel u, bracketLoop p |mu| sd fuel (|mu| + 8 * sd) = some u ∧ 0 < u ∧ p ≤ foldedCdf u |mu| sd 0 := by
  set u0 := |mu| + 8 * sd with hu0
  have hpos : 0 < u0 := by positivity
  have hev : ∀ᶠ x in atTop, p < foldedCdf x |mu| sd 0 := (folded_top |mu| sd hs).eventually (lt_mem_nhds hp)
  have hpow : Tendsto (fun k : ℕ => u0 * 2 ^ k) atTop atTop :=
    Tendsto.const_mul_atTop hpos (tendsto_pow_atTop_atTop_of_one_lt one_lt_two)
  obtain ⟨k, hk⟩ := (hpow.eventually hev).exists
  clear hev hpow
  clear_value u0
  clear hu0
  induction k generalizing u0 with
  | zero =>
    refine ⟨1, u0, ?_, hpos, ?_⟩
    · simp only [pow_zero, mul_one] at hk
      rw [bracketLoop, if_neg (by linarith)]
    · simp only [pow_zero, mul_one] at hk
      exact hk.le
  | succ k ih =>
    by_cases h : foldedCdf u0 |mu| sd 0 - p < 0
    · obtain ⟨fuel, u, h1, h2⟩ : ∃ fuel u, bracketLoop p |mu| sd fuel (u0 * 2) = some u ∧ 0 < u ∧ p ≤ foldedCdf u |mu| sd 0 := by
        have hk' : p < foldedCdf (u0 * 2 * 2 ^ k) |mu| sd 0 := by
          rw [show u0 * 2 * 2 ^ k = u0 * 2 ^ (k + 1) by ring]
          exact hk
        exact ih (u0 * 2) (by positivity) hk'
      exact ⟨fuel + 1, u, by rw [bracketLoop, if_pos h]; exact h1, h2⟩
    · exact ⟨1, u0, by rw [bracketLoop, if_neg h], hpos, by linarith⟩

/-- C152: the function returns a value for every level strictly between zero and one, every mean and every positive standard
deviation, and that value is unique. -/
theorem C152_exists (p mu sd : ℝ) (hp0 : 0 < p) (hp : p < 1) (hs : 0 < sd) : ∃! r, FoldedQuantile p mu sd r := by
  obtain ⟨fuel, u, hu, hupos, hge⟩ := C152_bracket p mu sd hp hs
  have hroot : ∃ r ∈ Icc 0 u, foldedCdf r |mu| sd 0 = p := by
    have := intermediate_value_Icc hupos.le (folded_cont |mu| sd 0).continuousOn
    exact this ⟨by rw [folded_zero]; exact hp0.le, hge⟩
  obtain ⟨r, hr, hrp⟩ := hroot
  have hsub : ∀ x, foldedCdf x |mu| sd p = foldedCdf x |mu| sd 0 - p := fun x => by unfold foldedCdf; ring
  by_cases hmu : |mu| = 0
  · have hpp : ∀ y : ℝ, 2 * Phi y - 1 = foldedCdf (sd * y) |mu| sd 0 := by
      intro y
      unfold foldedCdf
      rw [hmu, sub_zero, sub_zero, sub_zero, show sd * y / sd = y by field_simp, show -(sd * y) / sd = -y by field_simp, phi_neg]
      ring
    refine ⟨r, ⟨hs, Or.inl ⟨hmu, r / sd, ⟨div_nonneg hr.1 hs.le, ?_⟩, by field_simp⟩⟩, ?_⟩
    · rw [hpp, mul_div_cancel₀ _ hs.ne', hrp]
    · rintro z ⟨_, ⟨_, y, ⟨_, hy⟩, rfl⟩ | ⟨h, _⟩⟩
      · rw [hpp, ← hrp] at hy
        exact (folded_strictMono |mu| sd hs).injective hy
      · exact absurd hmu h
  · refine ⟨r, ⟨hs, Or.inr ⟨hmu, fuel, u, hu, ⟨?_, hr.1, hr.2, by simp only [hsub]; linarith⟩⟩⟩, ?_⟩
    · simp only [hsub, folded_zero]
      exact mul_nonpos_of_nonpos_of_nonneg (by linarith) (by linarith)
    · rintro z ⟨_, ⟨h, _⟩ | ⟨_, _, _, _, hz⟩⟩
      · exact absurd h hmu
      · have hz4 := hz.2.2.2
        simp only [hsub] at hz4
        exact (folded_strictMono |mu| sd hs).injective (show foldedCdf z |mu| sd 0 = foldedCdf r |mu| sd 0 by linarith)

/-- C152: the returned value is the quantile: a normal variable with that mean and standard deviation lies within it of zero
with probability exactly `p`. -/
theorem C152_quantile (p mu sd r : ℝ) (h : FoldedQuantile p mu sd r) : 0 ≤ r ∧ absNormal mu sd r = p := by
  obtain ⟨hs, h⟩ := h
  have hr : 0 ≤ r := by
    rcases h with ⟨_, y, ⟨hy, _⟩, rfl⟩ | ⟨_, _, _, _, hb⟩
    · exact mul_nonneg hs.le hy
    · exact hb.2.1
  refine ⟨hr, ?_⟩
  rw [absNormal_eq mu sd r hs hr, ← folded_abs]
  rcases h with ⟨hmu, y, ⟨_, hy⟩, rfl⟩ | ⟨_, _, _, _, hb⟩
  · unfold foldedCdf
    rw [hmu, sub_zero, sub_zero, sub_zero, show sd * y / sd = y by field_simp, show -(sd * y) / sd = -y by field_simp, phi_neg]
    linarith
  · have := hb.2.2.2
    unfold foldedCdf at this ⊢
    linarith

/-- C152: conversely the quantile determines the value; the sign of the mean is irrelevant. -/
theorem C152_sign (p mu sd r r' : ℝ) (h : FoldedQuantile p mu sd r) (h' : FoldedQuantile p (-mu) sd r') : r = r' := by
  obtain ⟨h1, h2⟩ := C152_quantile p mu sd r h
  obtain ⟨h3, h4⟩ := C152_quantile p (-mu) sd r' h'
  rw [absNormal_eq mu sd r h.1 h1, ← folded_abs] at h2
  rw [absNormal_eq _ sd r' h.1 h3, ← folded_abs, abs_neg] at h4
  exact (folded_strictMono |mu| sd h.1).injective (show foldedCdf r |mu| sd 0 = foldedCdf r' |mu| sd 0 by linarith)

/-- C152: the quantile rises with the level and with the distance of the mean from zero. -/
theorem C152_monotone (p p' mu mu' sd r r' : ℝ) (h : FoldedQuantile p mu sd r) (h' : FoldedQuantile p' mu' sd r') (hp : p ≤ p')
    (hm : |mu| ≤ |mu'|) : r ≤ r' := by
  obtain ⟨h1, h2⟩ := C152_quantile p mu sd r h
  obtain ⟨h3, h4⟩ := C152_quantile p' mu' sd r' h'
  have h5 := absNormal_anti r' sd h3 h.1 mu mu' hm
  rw [h4, absNormal_eq mu sd r' h.1 h3, ← folded_abs] at h5
  rw [absNormal_eq mu sd r h.1 h1, ← folded_abs] at h2
  exact (folded_strictMono |mu| sd h.1).le_iff_le.1 (show foldedCdf r |mu| sd 0 ≤ foldedCdf r' |mu| sd 0 by linarith)

/-- C152: standardising first and scaling back gives the same value (the code always calls the function with `sd = 1`). -/
theorem C152_scale (p mu sd r r' : ℝ) (h : FoldedQuantile p mu sd r) (h' : FoldedQuantile p (mu / sd) 1 r') : r = r' * sd := by
  have hs := h.1
  obtain ⟨h1, h2⟩ := C152_quantile p mu sd r h
  obtain ⟨h3, h4⟩ := C152_quantile p (mu / sd) 1 r' h'
  have h5 : 0 ≤ r' * sd := mul_nonneg h3 hs.le
  rw [absNormal_eq mu sd r hs h1] at h2
  rw [absNormal_eq _ 1 r' one_pos h3] at h4
  have e : foldedCdf (r' * sd) mu sd 0 = foldedCdf r' (mu / sd) 1 0 := by
    unfold foldedCdf
    congr 3 <;> field_simp
  refine (folded_strictMono mu sd hs).injective (show foldedCdf r mu sd 0 = foldedCdf (r' * sd) mu sd 0 by rw [e]; linarith)

example : ∃ r, FoldedQuantile (19 / 20) (1 / 3) 2 r ∧ 0 ≤ r ∧ absNormal (1 / 3) 2 r = 19 / 20 := by
  obtain ⟨r, hr, _⟩ := C152_exists (19 / 20) (1 / 3) 2 (by norm_num) (by norm_num) (by norm_num)
  exact ⟨r, hr, C152_quantile _ _ _ _ hr⟩

end Verif.Honest
