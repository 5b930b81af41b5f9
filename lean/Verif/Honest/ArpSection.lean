import Verif.Honest.ArpCond

/-!
# Size of the conditional tests, given the residual

For a fixed residual the selection event is an interval (up to its end points); a normal variable whose mean is not above the mean
used for the critical value exceeds the truncated quantile with conditional probability at most `alpha` (monotone likelihood ratio).
-/

set_option linter.unusedSectionVars false
set_option linter.unusedSimpArgs false

namespace Verif.Honest

open MeasureTheory ProbabilityTheory Set

/-- The likelihood ratio of `N(mu, v)` and `N(m0, v)`, `mu <= m0`, is non-increasing. -/
theorem pdf_ratio (μ m0 : ℝ) (v : NNReal) (hv : v ≠ 0) (hμ : μ ≤ m0) (q x : ℝ) :
    (q ≤ x → gaussianPDFReal μ v x ≤ Real.exp (((μ - m0) * q - (μ ^ 2 - m0 ^ 2) / 2) / v) * gaussianPDFReal m0 v x) ∧
    (x ≤ q → Real.exp (((μ - m0) * q - (μ ^ 2 - m0 ^ 2) / 2) / v) * gaussianPDFReal m0 v x ≤ gaussianPDFReal μ v x) := by
  have hv0 : 0 < (v : ℝ) := lt_of_le_of_ne v.2 (fun h => hv (by ext; exact h.symm))
  have e : ∀ a : ℝ, Real.exp a * gaussianPDFReal m0 v x =
      (Real.sqrt (2 * Real.pi * v))⁻¹ * Real.exp (a + -(x - m0) ^ 2 / (2 * v)) := by
    intro a
    rw [gaussianPDFReal_def, Real.exp_add]
    ring
  have hc : 0 ≤ (Real.sqrt (2 * Real.pi * v))⁻¹ := by positivity
  have key : -(x - μ) ^ 2 / (2 * (v : ℝ)) = (((μ - m0) * x - (μ ^ 2 - m0 ^ 2) / 2) / v) + -(x - m0) ^ 2 / (2 * v) := by
    field_simp
    ring
  constructor
  · intro h
    rw [e, gaussianPDFReal_def]
    refine mul_le_mul_of_nonneg_left (Real.exp_le_exp.2 ?_) hc
    rw [key]
    have : ((μ - m0) * x - (μ ^ 2 - m0 ^ 2) / 2) / v ≤ ((μ - m0) * q - (μ ^ 2 - m0 ^ 2) / 2) / (v : ℝ) := by
      refine div_le_div_of_nonneg_right ?_ hv0.le
      have := mul_le_mul_of_nonpos_left h (show μ - m0 ≤ 0 by linarith)
      linarith
    linarith
  · intro h
    rw [e, gaussianPDFReal_def]
    refine mul_le_mul_of_nonneg_left (Real.exp_le_exp.2 ?_) hc
    rw [key]
    have : ((μ - m0) * q - (μ ^ 2 - m0 ^ 2) / 2) / v ≤ ((μ - m0) * x - (μ ^ 2 - m0 ^ 2) / 2) / (v : ℝ) := by
      refine div_le_div_of_nonneg_right ?_ hv0.le
      have := mul_le_mul_of_nonpos_left h (show μ - m0 ≤ 0 by linarith)
      linarith
    linarith

/-- Mass to the right of `q` against mass to the left. -/
theorem mlr (μ m0 s : ℝ) (hs : 0 < s) (hμ : μ ≤ m0) (q : ℝ) (S T : Set ℝ) (hSm : MeasurableSet S) (hTm : MeasurableSet T)
    (hS : S ⊆ Iic q) (hT : T ⊆ Ici q) :
    (normalLaw μ s).real T * (normalLaw m0 s).real S ≤ (normalLaw μ s).real S * (normalLaw m0 s).real T := by
  set v := (s ^ 2).toNNReal
  have hv : v ≠ 0 := var_ne s hs
  set k := Real.exp (((μ - m0) * q - (μ ^ 2 - m0 ^ 2) / 2) / v) with hk
  have e : ∀ (m : ℝ) (U : Set ℝ), (normalLaw m s).real U = ∫ x in U, gaussianPDFReal m v x := by
    intro m U
    unfold normalLaw Measure.real
    rw [gaussianReal_apply_eq_integral m hv, ENNReal.toReal_ofReal]
    exact integral_nonneg fun x => gaussianPDFReal_nonneg m v x
  have hint : ∀ (m : ℝ) (U : Set ℝ), IntegrableOn (gaussianPDFReal m v) U := fun m U =>
    (integrable_gaussianPDFReal m v).integrableOn
  have h1 : (normalLaw μ s).real T ≤ k * (normalLaw m0 s).real T := by
    rw [e, e, ← integral_const_mul]
    exact setIntegral_mono_on (hint _ _) ((hint _ _).const_mul k) hTm fun x hx => (pdf_ratio μ m0 v hv hμ q x).1 (hT hx)
  have h2 : k * (normalLaw m0 s).real S ≤ (normalLaw μ s).real S := by
    rw [e, e, ← integral_const_mul]
    exact setIntegral_mono_on ((hint _ _).const_mul k) (hint _ _) hSm fun x hx => (pdf_ratio μ m0 v hv hμ q x).2 (hS hx)
  calc (normalLaw μ s).real T * (normalLaw m0 s).real S ≤ k * (normalLaw m0 s).real T * (normalLaw m0 s).real S :=
        mul_le_mul_of_nonneg_right h1 measureReal_nonneg
    _ = k * (normalLaw m0 s).real S * (normalLaw m0 s).real T := by ring
    _ ≤ (normalLaw μ s).real S * (normalLaw m0 s).real T := mul_le_mul_of_nonneg_right h2 measureReal_nonneg

/-- The end point, if any. -/
def Bnd.pts : Bnd ℝ → Set ℝ
  | Bnd.fin x => {x}
  | _ => ∅

theorem pts_null (m s : ℝ) (hs : 0 < s) (b : Bnd ℝ) : normalLaw m s b.pts = 0 := by
  cases b with
  | infinite => exact measure_empty
  | nan => exact measure_empty
  | fin x => exact normalLaw_noAtoms m s hs x

theorem trunc_sub_open (lo up : Bnd ℝ) : truncSet lo up ⊆ truncOpen lo up ∪ (lo.pts ∪ up.pts) := by
  rintro x ⟨h1, h2⟩
  by_cases hl : x ∈ lo.pts
  · exact Or.inr (Or.inl hl)
  by_cases hu : x ∈ up.pts
  · exact Or.inr (Or.inr hu)
  refine Or.inl ⟨?_, ?_⟩
  · cases lo with
    | infinite => trivial
    | nan => exact h1
    | fin l => exact lt_of_le_of_ne h1 (fun h => hl h.symm)
  · cases up with
    | infinite => trivial
    | nan => exact h2
    | fin u => exact lt_of_le_of_ne h2 (fun h => hu h)

/-- Sets between the open and the closed interval have the same mass. -/
theorem between_mass (m s : ℝ) (hs : 0 < s) (lo up : Bnd ℝ) (W Q : Set ℝ) (h1 : truncOpen lo up ⊆ W) (h2 : W ⊆ truncSet lo up) :
    (normalLaw m s).real (W ∩ Q) = (normalLaw m s).real (truncSet lo up ∩ Q) := by
  unfold Measure.real
  congr 1
  refine le_antisymm (measure_mono (inter_subset_inter_left _ h2)) ?_
  have hsub : truncSet lo up ∩ Q ⊆ (W ∩ Q) ∪ (lo.pts ∪ up.pts) := by
    rintro x ⟨hx, hq⟩
    rcases trunc_sub_open lo up hx with h | h
    · exact Or.inl ⟨h1 h, hq⟩
    · exact Or.inr h
  calc normalLaw m s (truncSet lo up ∩ Q) ≤ normalLaw m s ((W ∩ Q) ∪ (lo.pts ∪ up.pts)) := measure_mono hsub
    _ ≤ normalLaw m s (W ∩ Q) + normalLaw m s (lo.pts ∪ up.pts) := measure_union_le _ _
    _ ≤ normalLaw m s (W ∩ Q) + (normalLaw m s lo.pts + normalLaw m s up.pts) := by gcongr; exact measure_union_le _ _
    _ = normalLaw m s (W ∩ Q) := by rw [pts_null m s hs, pts_null m s hs]; simp

theorem sel_measurable (m B : ℕ) (Ac rhs : ℕ → ℝ) : MeasurableSet {x | Sel m B Ac rhs x} := by
  have : {x | Sel m B Ac rhs x} = ⋂ i, {x | i < m → Ac i * x ≤ rhs i ∧ (i < B → Ac i * x < rhs i)} := by
    ext x
    simp [Sel]
  rw [this]
  refine MeasurableSet.iInter fun i => ?_
  by_cases h : i < m
  · by_cases h' : i < B
    · simp only [h, h', true_implies]
      have a1 : MeasurableSet {x : ℝ | Ac i * x ≤ rhs i} := measurableSet_le (by fun_prop) (by fun_prop)
      have a2 : MeasurableSet {x : ℝ | Ac i * x < rhs i} := measurableSet_lt (by fun_prop) (by fun_prop)
      exact a1.inter a2
    · simp only [h, h', true_implies, false_implies, and_true]
      exact measurableSet_le (by fun_prop) (by fun_prop)
  · simp [h]

/-- Both ends in order, or the event is at most a point. -/
theorem proper_or (lo up : Bnd ℝ) (hl : lo ≠ Bnd.nan) (hu : up ≠ Bnd.nan) :
    Proper lo up ∨ ∃ l u, lo = Bnd.fin l ∧ up = Bnd.fin u ∧ u ≤ l := by
  by_cases h : ∃ l u, lo = Bnd.fin l ∧ up = Bnd.fin u ∧ u ≤ l
  · exact Or.inr h
  · left
    refine ⟨hl, hu, fun l u h1 h2 => ?_⟩
    by_contra hc
    exact h ⟨l, u, h1, h2, not_lt.1 hc⟩

/-- Given the residual: the probability of the selection event together with an upper set `U` or the rejection region is at most that
of the event with `U`, plus `alpha` times the rest. -/
theorem section_le (μ m0 s alpha : ℝ) (hs : 0 < s) (hμ : μ ≤ m0) (ha0 : 0 < alpha) (ha1 : alpha < 1) (m B : ℕ) (Ac rhs : ℕ → ℝ)
    (hAc : ∀ i < m, Ac i = 0 ∨ arpTol < |Ac i|) (U : Set ℝ) (hU : IsUpperSet U) :
    (normalLaw μ s).real ({x | Sel m B Ac rhs x} ∩
      (U ∪ {x | pTrunc (1 - alpha) m0 s (loOf m Ac rhs) (upOf m Ac rhs) < Phi ((x - m0) / s)})) ≤
      (1 - alpha) * (normalLaw μ s).real ({x | Sel m B Ac rhs x} ∩ U) + alpha * (normalLaw μ s).real {x | Sel m B Ac rhs x} := by
  set I := {x | Sel m B Ac rhs x} with hI
  set lo := loOf m Ac rhs
  set up := upOf m Ac rhs
  have hIm : MeasurableSet I := sel_measurable m B Ac rhs
  have hsub : I ⊆ truncSet lo up := fun x hx => sel_trunc m B Ac rhs x hx
  by_cases hne : I = ∅
  · rw [hne]; simp
  obtain ⟨x0, hx0⟩ := nonempty_iff_ne_empty.2 hne
  have hop : truncOpen lo up ⊆ I := fun x hx => open_sel m B Ac rhs x0 x hAc hx0 hx
  rcases proper_or lo up (accum_not_nan _ _) (accum_not_nan _ _) with hP | ⟨l, u, h1, h2, hlu⟩
  · -- the regular case
    obtain ⟨hb1, hb2, hb3, hb4⟩ := pTrunc_between (1 - alpha) m0 s (by linarith) (by linarith) hs lo up hP
    obtain ⟨r, hr1, hr2, hr3, hr4⟩ := C155_quantile (1 - alpha) m0 s (by linarith) (by linarith) hs lo up hP
    rw [norminvp_eq (1 - alpha) m0 s (by linarith) (by linarith) hs lo up hP] at hr1
    simp only [Option.some.injEq, Ext.fin.injEq] at hr1
    have hR : {x | pTrunc (1 - alpha) m0 s lo up < Phi ((x - m0) / s)} = Ioi r := by
      ext x
      simp only [mem_ofPred_eq, mem_Ioi]
      rw [← ppf_lt _ _ hb3 hb4, lt_div_iff₀ hs, ← hr1]
      constructor <;> intro h <;> linarith
    rw [hR]
    have hD0 : (normalLaw m0 s).real I = (normalLaw m0 s).real (truncSet lo up) := by
      have := between_mass m0 s hs lo up I univ hop hsub
      simpa using this
    have hS0 : (normalLaw m0 s).real (I ∩ Iic r) = (1 - alpha) * (normalLaw m0 s).real I := by
      rw [between_mass m0 s hs lo up I (Iic r) hop hsub, hr4, hD0]
    have hsplit : ∀ G : ℝ, (normalLaw G s).real (I ∩ Ioi r) = (normalLaw G s).real I - (normalLaw G s).real (I ∩ Iic r) := by
      intro G
      have h := measureReal_inter_add_sdiff (μ := normalLaw G s) (s := I) (t := Iic r) measurableSet_Iic
      have e : I \ Iic r = I ∩ Ioi r := by
        ext x
        simp only [mem_diff, mem_inter_iff, mem_Iic, mem_Ioi, not_le]
      rw [e] at h
      linarith
    have hmlr := mlr μ m0 s hs hμ r (I ∩ Iic r) (I ∩ Ioi r) (hIm.inter measurableSet_Iic) (hIm.inter measurableSet_Ioi)
      (fun x hx => hx.2) (fun x hx => le_of_lt (show r < x from hx.2))
    rw [hsplit m0, hS0] at hmlr
    have hDpos : 0 < (normalLaw m0 s).real I := by rw [hD0]; exact hr3
    set D := (normalLaw m0 s).real I
    set a := (normalLaw μ s).real (I ∩ Ioi r) with ha
    set b := (normalLaw μ s).real (I ∩ Iic r)
    have hab := hsplit μ
    have hrej : a ≤ alpha * (normalLaw μ s).real I := by
      have h1 : (a * (1 - alpha)) * D ≤ (b * alpha) * D := by
        calc (a * (1 - alpha)) * D = a * ((1 - alpha) * D) := by ring
          _ ≤ b * (D - (1 - alpha) * D) := hmlr
          _ = (b * alpha) * D := by ring
      have h2 := le_of_mul_le_mul_right h1 hDpos
      have hab' : a = (normalLaw μ s).real I - b := hab
      have h3 : (normalLaw μ s).real I = a + b := by linarith
      rw [h3]
      linarith
    have hUle : (normalLaw μ s).real (I ∩ U) ≤ (normalLaw μ s).real I := measureReal_mono inter_subset_left
    have hUnn : 0 ≤ (normalLaw μ s).real (I ∩ U) := measureReal_nonneg
    by_cases hq : U ⊆ Ioi r
    · rw [union_eq_self_of_subset_left hq]
      have : 0 ≤ (1 - alpha) * (normalLaw μ s).real (I ∩ U) := mul_nonneg (by linarith) hUnn
      linarith
    · have hsup : Ioi r ⊆ U := by
        rw [not_subset] at hq
        obtain ⟨t, ht, htr⟩ := hq
        intro x hx
        exact hU (le_trans (not_lt.1 htr) (le_of_lt hx)) ht
      rw [union_eq_self_of_subset_right hsup]
      have := mul_le_mul_of_nonneg_left hUle ha0.le
      linarith
  · -- at most a point
    have hnull : normalLaw μ s I = 0 := by
      refine measure_mono_null (fun x hx => ?_) (normalLaw_noAtoms μ s hs l)
      have h := hsub hx
      rw [h1, h2] at h
      have ha : l ≤ x := h.1
      have hb : x ≤ u := h.2
      exact le_antisymm (by linarith) ha
    have hz : ∀ Q, (normalLaw μ s).real (I ∩ Q) = 0 := fun Q => by
      unfold Measure.real
      rw [measure_mono_null inter_subset_left hnull]
      rfl
    have hz' : (normalLaw μ s).real I = 0 := by
      unfold Measure.real
      rw [hnull]
      rfl
    rw [hz, hz, hz']
    simp

/-- A rejection on the scale of the statistic. -/
theorem crit_below (p m0 s x : ℝ) (hp0 : 0 < p) (hp1 : p < 1) (hs : 0 < s) (lo up : Bnd ℝ) (hl : lo ≠ Bnd.nan) (hu : up ≠ Bnd.nan)
    (hx : x ∈ truncSet lo up) (c : Ext) (hc : norminvp p lo up m0 s = some c) (hb : c.below x) :
    pTrunc p m0 s lo up < Phi ((x - m0) / s) := by
  rcases proper_or lo up hl hu with hP | ⟨l, u, rfl, rfl, hlu⟩
  · obtain ⟨h1, h2, h3, h4⟩ := pTrunc_between p m0 s hp0 hp1 hs lo up hP
    rw [norminvp_eq p m0 s hp0 hp1 hs lo up hP] at hc
    simp only [Option.some.injEq] at hc
    subst hc
    have hb' : m0 + s * ppf (pTrunc p m0 s lo up) < x := hb
    rw [← ppf_lt _ _ h3 h4, lt_div_iff₀ hs]
    linarith
  · have h1 : l ≤ x := hx.1
    have h2 : x ≤ u := hx.2
    have e1 : x = l := le_antisymm (by linarith) h1
    have e2 : u = l := le_antisymm hlu (by linarith)
    subst e2
    subst e1
    rw [C155_point p m0 s x hs] at hc
    simp only [Option.some.injEq] at hc
    subst hc
    exact absurd (show x < x from hb) (lt_irrefl _)

end Verif.Honest
