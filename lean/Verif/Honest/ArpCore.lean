import Verif.Honest.ArpIndep

/-!
# Unconditional size of the conditional rejection regions
-/

set_option linter.unusedSectionVars false
set_option linter.unusedSimpArgs false

namespace Verif.Honest

open MeasureTheory ProbabilityTheory Finset

theorem cdfLower_fold (m s : ℝ) (hs : 0 < s) (l : List ℝ) :
    cdfLower m s (accum max l Bnd.infinite) = (l.map fun y => Phi ((y - m) / s)).foldl max 0 := by
  have hmono : Monotone fun y => Phi ((y - m) / s) := fun a b h => phi_mono (div_le_div_of_nonneg_right (by linarith) hs.le)
  have key : ∀ (l : List ℝ) (a : ℝ), Phi ((l.foldl max a - m) / s) =
      (l.map fun y => Phi ((y - m) / s)).foldl max (Phi ((a - m) / s)) := by
    intro l
    induction l with
    | nil => intro a; rfl
    | cons b l ih =>
      intro a
      rw [List.foldl_cons, ih, List.map_cons, List.foldl_cons]
      congr 1
      exact hmono.map_max
  cases l with
  | nil => rfl
  | cons a l =>
    show cdfLower m s (accum max l (Bnd.fin a)) = _
    rw [accum_fin, List.map_cons, List.foldl_cons, max_eq_right (phi_nonneg _)]
    exact key l a

theorem cdfUpper_fold (m s : ℝ) (hs : 0 < s) (l : List ℝ) :
    cdfUpper m s (accum min l Bnd.infinite) = (l.map fun y => Phi ((y - m) / s)).foldl min 1 := by
  have hmono : Monotone fun y => Phi ((y - m) / s) := fun a b h => phi_mono (div_le_div_of_nonneg_right (by linarith) hs.le)
  have key : ∀ (l : List ℝ) (a : ℝ), Phi ((l.foldl min a - m) / s) =
      (l.map fun y => Phi ((y - m) / s)).foldl min (Phi ((a - m) / s)) := by
    intro l
    induction l with
    | nil => intro a; rfl
    | cons b l ih =>
      intro a
      rw [List.foldl_cons, ih, List.map_cons, List.foldl_cons]
      congr 1
      exact hmono.map_min
  cases l with
  | nil => rfl
  | cons a l =>
    show cdfUpper m s (accum min l (Bnd.fin a)) = _
    rw [accum_fin, List.map_cons, List.foldl_cons, min_eq_right (phi_lt_one _).le]
    exact key l a

theorem foldl_meas {E : Type*} [MeasurableSpace E] (op : ℝ → ℝ → ℝ) (hop : ∀ f g : E → ℝ, Measurable f → Measurable g →
    Measurable fun z => op (f z) (g z)) (L : List ℕ) (F : ℕ → E → ℝ) (hF : ∀ i, Measurable (F i)) (g : E → ℝ) (hg : Measurable g) :
    Measurable fun z => (L.map fun i => F i z).foldl op (g z) := by
  induction L generalizing g with
  | nil => exact hg
  | cons a L ih =>
    simp only [List.map_cons, List.foldl_cons]
    exact ih _ (hop _ _ hg (hF a))

theorem slackRhs_meas (n : ℕ) (At : ℕ → ℕ → ℝ) (dt : ℕ → ℝ) (B i : ℕ) :
    Measurable fun z : Fin n → ℝ => slackRhs n At dt B (extV n z) i :=
  measurable_const.sub (dot_meas n fun j => At i j - At B j)

theorem pTrunc_meas (n m : ℕ) (At : ℕ → ℕ → ℝ) (dt : ℕ → ℝ) (B : ℕ) (Ac : ℕ → ℝ) (p m0 s : ℝ) (hs : 0 < s) :
    Measurable fun z : Fin n → ℝ => pTrunc p m0 s (loOf m Ac (slackRhs n At dt B (extV n z)))
      (upOf m Ac (slackRhs n At dt B (extV n z))) := by
  have hF : ∀ i, Measurable fun z : Fin n → ℝ => Phi ((slackRhs n At dt B (extV n z) i / Ac i - m0) / s) := fun i =>
    phi_continuous.measurable.comp ((((slackRhs_meas n At dt B i).div_const _).sub_const _).div_const _)
  have h1 : Measurable fun z : Fin n → ℝ => cdfLower m0 s (loOf m Ac (slackRhs n At dt B (extV n z))) := by
    unfold loOf
    simp only [cdfLower_fold m0 s hs, List.map_map, Function.comp_def]
    exact foldl_meas max (fun f g hf hg => hf.max hg) _ _ hF _ measurable_const
  have h2 : Measurable fun z : Fin n → ℝ => cdfUpper m0 s (upOf m Ac (slackRhs n At dt B (extV n z))) := by
    unfold upOf
    simp only [cdfUpper_fold m0 s hs, List.map_map, Function.comp_def]
    exact foldl_meas min (fun f g hf hg => hf.min hg) _ _ hF _ measurable_const
  unfold pTrunc
  exact h1.add ((h2.sub h1).const_mul p)

theorem sel_meas2 (n m B : ℕ) (At : ℕ → ℕ → ℝ) (dt : ℕ → ℝ) (Ac : ℕ → ℝ) :
    MeasurableSet {w : ℝ × (Fin n → ℝ) | Sel m B Ac (slackRhs n At dt B (extV n w.2)) w.1} := by
  have : {w : ℝ × (Fin n → ℝ) | Sel m B Ac (slackRhs n At dt B (extV n w.2)) w.1} =
      ⋂ i, {w | i < m → Ac i * w.1 ≤ slackRhs n At dt B (extV n w.2) i ∧ (i < B → Ac i * w.1 < slackRhs n At dt B (extV n w.2) i)} := by
    ext w
    simp [Sel]
  rw [this]
  have hm : ∀ i, Measurable fun w : ℝ × (Fin n → ℝ) => slackRhs n At dt B (extV n w.2) i := fun i =>
    (slackRhs_meas n At dt B i).comp measurable_snd
  refine MeasurableSet.iInter fun i => ?_
  have a1 : MeasurableSet {w : ℝ × (Fin n → ℝ) | Ac i * w.1 ≤ slackRhs n At dt B (extV n w.2) i} :=
    measurableSet_le (measurable_fst.const_mul _) (hm i)
  have a2 : MeasurableSet {w : ℝ × (Fin n → ℝ) | Ac i * w.1 < slackRhs n At dt B (extV n w.2) i} :=
    measurableSet_lt (measurable_fst.const_mul _) (hm i)
  by_cases h : i < m
  · by_cases h' : i < B
    · simp only [h, h', true_implies]
      exact a1.inter a2
    · simp only [h, h', true_implies, false_implies, and_true]
      exact a1
  · simp [h]

theorem slackRhs_res (n : ℕ) (sigma At : ℕ → ℕ → ℝ) (dt : ℕ → ℝ) (B : ℕ) (v : Fin n → ℝ) :
    slackRhs n At dt B (residual n sigma (At B) (extV n v)) = slackRhs n At dt B (extV n (resVec n sigma (At B) v)) := by
  funext i
  unfold slackRhs
  congr 1
  refine sum_congr rfl fun j hj => ?_
  rw [residual_dot n sigma (At B) _ j (mem_range.1 hj)]
  simp [extV, mem_range.1 hj, resVec]

/-- The rejection region of inequality `B` on the scale of the statistic. -/
def RejectB (alpha : ℝ) (n m : ℕ) (sigma At : ℕ → ℕ → ℝ) (dt : ℕ → ℝ) (B : ℕ) (y : ℕ → ℝ) : Prop :=
  pTrunc (1 - alpha) (dt B) (sigmaBar n sigma (At B)) (loOf m (slackCoef n sigma At B) (slackRhs n At dt B (residual n sigma (At B) y)))
      (upOf m (slackCoef n sigma At B) (slackRhs n At dt B (residual n sigma (At B) y))) <
    Phi ((dotN n (At B) y - dt B) / sigmaBar n sigma (At B))

/-- One inequality: the probability that it attains the maximum and the statistic is in an upper set `U` or in the rejection region. -/
theorem core_one (n m : ℕ) (ν : Measure (Fin n → ℝ)) (beta : ℕ → ℝ) (sigma At : ℕ → ℕ → ℝ) (dt : ℕ → ℝ) (B : ℕ) (alpha : ℝ)
    (h : CoefLaw n ν beta sigma) (hpsd : ∀ c, 0 ≤ quadForm n c sigma) (hs : ∀ i < n, ∀ j < n, sigma i j = sigma j i)
    (hB : B < m) (hv : arpTol ≤ etaSigmaEta n (At B) sigma) (hr : Resolved n m sigma At B)
    (hnull : dotN n (At B) beta ≤ dt B) (ha0 : 0 < alpha) (ha1 : alpha < 1) (U : Set ℝ) (hU : IsUpperSet U) (hUm : MeasurableSet U) :
    ν {v | IsFirstMax m (moment n At dt (extV n v)) B ∧ (dotN n (At B) (extV n v) ∈ U ∨ RejectB alpha n m sigma At dt B (extV n v))} ≤
      ENNReal.ofReal (1 - alpha) * ν {v | IsFirstMax m (moment n At dt (extV n v)) B ∧ dotN n (At B) (extV n v) ∈ U} +
        ENNReal.ofReal alpha * ν {v | IsFirstMax m (moment n At dt (extV n v)) B} := by
  have hprob := coefLaw_prob n ν beta sigma h
  have hv0 : 0 < etaSigmaEta n (At B) sigma := lt_of_lt_of_le arpTol_pos hv
  set s := sigmaBar n sigma (At B) with hsdef
  have hs0 : 0 < s := Real.sqrt_pos.2 hv0
  have hs2 : s ^ 2 = quadForm n (At B) sigma := by
    rw [hsdef, sigmaBar, Real.sq_sqrt hv0.le, etaSigmaEta_quad]
  set X : (Fin n → ℝ) → ℝ := fun v => dotN n (At B) (extV n v) with hX
  set Z := resVec n sigma (At B) with hZ
  have hXm : Measurable X := dot_meas n _
  have hZm : Measurable Z := resVec_meas n sigma _
  have hmapX : ν.map X = normalLaw (dotN n (At B) beta) s := by
    rw [hX, h (At B), ← hs2]
    rfl
  have hprod : ν.map (fun v => (X v, Z v)) = (ν.map X).prod (ν.map Z) :=
    (stat_indep n ν beta sigma h hpsd hs (At B) hv0.ne').map_prod_eq_prod_map_map hXm.aemeasurable hZm.aemeasurable
  set Ac := slackCoef n sigma At B with hAc
  set TI : Set (ℝ × (Fin n → ℝ)) := {w | Sel m B Ac (slackRhs n At dt B (extV n w.2)) w.1} with hTI
  set TU : Set (ℝ × (Fin n → ℝ)) := {w | w.1 ∈ U} with hTU
  set TR : Set (ℝ × (Fin n → ℝ)) := {w | pTrunc (1 - alpha) (dt B) s (loOf m Ac (slackRhs n At dt B (extV n w.2)))
      (upOf m Ac (slackRhs n At dt B (extV n w.2))) < Phi ((w.1 - dt B) / s)} with hTR
  have mTI : MeasurableSet TI := sel_meas2 n m B At dt Ac
  have mTU : MeasurableSet TU := measurable_fst hUm
  have mTR : MeasurableSet TR :=
    measurableSet_lt ((pTrunc_meas n m At dt B Ac (1 - alpha) (dt B) s hs0).comp measurable_snd)
      (phi_continuous.measurable.comp ((measurable_fst.sub_const _).div_const _))
  have hmeas : ∀ T : Set (ℝ × (Fin n → ℝ)), MeasurableSet T → ν {v | (X v, Z v) ∈ T} =
      ∫⁻ z, normalLaw (dotN n (At B) beta) s ((fun x => (x, z)) ⁻¹' T) ∂(ν.map Z) := by
    intro T hT
    have e : ν {v | (X v, Z v) ∈ T} = (ν.map fun v => (X v, Z v)) T :=
      (Measure.map_apply (hXm.prodMk hZm) hT).symm
    have : IsProbabilityMeasure (ν.map Z) := Measure.isProbabilityMeasure_map hZm.aemeasurable
    have : IsProbabilityMeasure (ν.map X) := Measure.isProbabilityMeasure_map hXm.aemeasurable
    rw [e, hprod, Measure.prod_apply_symm hT, hmapX]
  have hI : ∀ v, IsFirstMax m (moment n At dt (extV n v)) B ↔ (X v, Z v) ∈ TI := by
    intro v
    rw [firstMax_sel n m sigma At dt (extV n v) B hB, slackRhs_res]
    rfl
  have hR : ∀ v, RejectB alpha n m sigma At dt B (extV n v) ↔ (X v, Z v) ∈ TR := by
    intro v
    unfold RejectB
    rw [slackRhs_res]
    rfl
  have e1 : {v | IsFirstMax m (moment n At dt (extV n v)) B ∧ (dotN n (At B) (extV n v) ∈ U ∨ RejectB alpha n m sigma At dt B (extV n v))} =
      {v | (X v, Z v) ∈ TI ∩ (TU ∪ TR)} := by
    ext v
    simp only [Set.mem_ofPred_eq, hI, hR, Set.mem_inter_iff, Set.mem_union]
    rfl
  have e2 : {v | IsFirstMax m (moment n At dt (extV n v)) B ∧ dotN n (At B) (extV n v) ∈ U} = {v | (X v, Z v) ∈ TI ∩ TU} := by
    ext v
    simp only [Set.mem_ofPred_eq, hI, Set.mem_inter_iff]
    rfl
  have e3 : {v | IsFirstMax m (moment n At dt (extV n v)) B} = {v | (X v, Z v) ∈ TI} := by
    ext v
    simp only [Set.mem_ofPred_eq, hI]
  rw [e1, e2, e3, hmeas _ (mTI.inter (mTU.union mTR)), hmeas _ (mTI.inter mTU), hmeas _ mTI,
    ← lintegral_const_mul _ (measurable_measure_prodMk_right (mTI.inter mTU)),
    ← lintegral_const_mul _ (measurable_measure_prodMk_right mTI),
    ← lintegral_add_left ((measurable_measure_prodMk_right (mTI.inter mTU)).const_mul _)]
  refine lintegral_mono fun z => ?_
  have hsec := section_le (dotN n (At B) beta) (dt B) s alpha hs0 hnull ha0 ha1 m B Ac (slackRhs n At dt B (extV n z)) hr U hU
  have conv : ∀ W : Set ℝ, normalLaw (dotN n (At B) beta) s W = ENNReal.ofReal ((normalLaw (dotN n (At B) beta) s).real W) :=
    fun W => (ofReal_measureReal (measure_ne_top _ _)).symm
  beta_reduce
  rw [conv, conv ((fun x => (x, z)) ⁻¹' (TI ∩ TU)), conv ((fun x => (x, z)) ⁻¹' TI), ← ENNReal.ofReal_mul (by linarith),
    ← ENNReal.ofReal_mul ha0.le, ← ENNReal.ofReal_add (mul_nonneg (by linarith) measureReal_nonneg)
      (mul_nonneg ha0.le measureReal_nonneg)]
  exact ENNReal.ofReal_le_ofReal hsec

theorem firstMax_meas (n m : ℕ) (At : ℕ → ℕ → ℝ) (dt : ℕ → ℝ) (B : ℕ) :
    MeasurableSet {v : Fin n → ℝ | IsFirstMax m (moment n At dt (extV n v)) B} := by
  have hm : ∀ i, Measurable fun v : Fin n → ℝ => moment n At dt (extV n v) i := fun i => (dot_meas n (At i)).sub_const _
  by_cases hB : B < m
  · have : {v : Fin n → ℝ | IsFirstMax m (moment n At dt (extV n v)) B} =
        ⋂ i, {v | i < m → moment n At dt (extV n v) i ≤ moment n At dt (extV n v) B ∧
          (i < B → moment n At dt (extV n v) i < moment n At dt (extV n v) B)} := by
      ext v
      simp [IsFirstMax, hB]
    rw [this]
    refine MeasurableSet.iInter fun i => ?_
    have a1 : MeasurableSet {v : Fin n → ℝ | moment n At dt (extV n v) i ≤ moment n At dt (extV n v) B} := measurableSet_le (hm i) (hm B)
    have a2 : MeasurableSet {v : Fin n → ℝ | moment n At dt (extV n v) i < moment n At dt (extV n v) B} := measurableSet_lt (hm i) (hm B)
    by_cases h : i < m
    · by_cases h' : i < B
      · simp only [h, h', true_implies]
        exact a1.inter a2
      · simp only [h, h', true_implies, false_implies, and_true]
        exact a1
    · simp [h]
  · have : {v : Fin n → ℝ | IsFirstMax m (moment n At dt (extV n v)) B} = ∅ := by
      ext v
      simp [IsFirstMax, hB]
    rw [this]
    exact MeasurableSet.empty

/-- All inequalities together. -/
theorem core_all (n m : ℕ) (ν : Measure (Fin n → ℝ)) (beta : ℕ → ℝ) (sigma At : ℕ → ℕ → ℝ) (dt : ℕ → ℝ) (alpha : ℝ)
    (h : CoefLaw n ν beta sigma) (hpsd : ∀ c, 0 ≤ quadForm n c sigma) (hs : ∀ i < n, ∀ j < n, sigma i j = sigma j i)
    (hv : ∀ B < m, arpTol ≤ etaSigmaEta n (At B) sigma) (hr : ∀ B < m, Resolved n m sigma At B)
    (hnull : ∀ B < m, dotN n (At B) beta ≤ dt B) (ha0 : 0 < alpha) (ha1 : alpha < 1) (U : ℕ → Set ℝ) (hU : ∀ B, IsUpperSet (U B))
    (hUm : ∀ B, MeasurableSet (U B)) :
    ν {v | ∃ B < m, IsFirstMax m (moment n At dt (extV n v)) B ∧
        (dotN n (At B) (extV n v) ∈ U B ∨ RejectB alpha n m sigma At dt B (extV n v))} ≤
      ENNReal.ofReal (1 - alpha) * ν {v | ∃ B < m, IsFirstMax m (moment n At dt (extV n v)) B ∧ dotN n (At B) (extV n v) ∈ U B} +
        ENNReal.ofReal alpha := by
  have hprob := coefLaw_prob n ν beta sigma h
  have hdisj : ∀ (Q : ℕ → (Fin n → ℝ) → Prop), (∀ B, MeasurableSet {v | IsFirstMax m (moment n At dt (extV n v)) B ∧ Q B v}) →
      ν {v | ∃ B < m, IsFirstMax m (moment n At dt (extV n v)) B ∧ Q B v} =
        ∑ B ∈ range m, ν {v | IsFirstMax m (moment n At dt (extV n v)) B ∧ Q B v} := by
    intro Q hQ
    rw [← measure_biUnion_finset]
    · congr 1
      ext v
      simp only [Set.mem_iUnion, Finset.mem_range, Set.mem_ofPred_eq, exists_prop]
    · intro B _ B' _ hne
      rw [Function.onFun, Set.disjoint_left]
      intro v hv1 hv2
      exact hne (firstMax_unique m _ B B' hv1.1 hv2.1)
    · intro B _
      exact hQ B
  have h1 : ν {v | ∃ B < m, IsFirstMax m (moment n At dt (extV n v)) B ∧
        (dotN n (At B) (extV n v) ∈ U B ∨ RejectB alpha n m sigma At dt B (extV n v))} ≤
      ∑ B ∈ range m, ν {v | IsFirstMax m (moment n At dt (extV n v)) B ∧
        (dotN n (At B) (extV n v) ∈ U B ∨ RejectB alpha n m sigma At dt B (extV n v))} := by
    refine le_trans (measure_mono ?_) (measure_biUnion_finset_le _ _)
    rintro v ⟨B, hB, hv⟩
    exact Set.mem_biUnion (mem_coe.2 (mem_range.2 hB)) hv
  refine h1.trans ?_
  have h2 := sum_le_sum fun B (hB : B ∈ range m) => core_one n m ν beta sigma At dt B alpha h hpsd hs (mem_range.1 hB)
    (hv B (mem_range.1 hB)) (hr B (mem_range.1 hB)) (hnull B (mem_range.1 hB)) ha0 ha1 (U B) (hU B) (hUm B)
  refine h2.trans ?_
  rw [sum_add_distrib, ← mul_sum, ← mul_sum]
  refine add_le_add (le_of_eq ?_) ?_
  · congr 1
    rw [hdisj (fun B v => dotN n (At B) (extV n v) ∈ U B)]
    intro B
    exact (firstMax_meas n m At dt B).inter ((dot_meas n (At B)) (hUm B))
  · have h3 := hdisj (fun _ _ => True) (fun B => by simpa using firstMax_meas n m At dt B)
    simp only [and_true] at h3
    rw [← h3]
    calc ENNReal.ofReal alpha * ν {v | ∃ B < m, IsFirstMax m (moment n At dt (extV n v)) B} ≤ ENNReal.ofReal alpha * 1 := by
          gcongr
          exact prob_le_one
      _ = ENNReal.ofReal alpha := mul_one _

end Verif.Honest
