import Verif.Inter.VarShock
import Verif.Inter.Normalise
import Mathlib.Algebra.Order.Field.Rat
import Mathlib.Tactic.Positivity

/-! # Standard errors of `did_multiplegt`: clusters, covariance matrix, normalisation, average total effect (C138, C140-C143) -/

set_option linter.unusedSectionVars false
set_option linter.unusedSimpArgs false

namespace Verif.Inter

open Finset

variable {ι β γ K : Type*} [Fintype ι] [DecidableEq ι] [DecidableEq β] [DecidableEq γ] [Field K] [LinearOrder K]

/-! ## C138: examples -/

/-- Clusters `{0, 2}` and `{1, 3}` on the panel `exB`. -/
def exVc : VOpt (Fin 4) ℕ ℚ := { exV with cluster := some ![some 0, some 1, some 0, some 1] }

example : exV.cluster = none ∧ (∀ r, exB.frame.diff false 1 r ≠ none → 0 < exB.frame.w r.1 r.2) ∧
    (switcherRows exB.frame (exB.opt (1 / 10)) false 1).Nonempty ∧
    horizonSE exV (unitVar exB.frame (exB.opt (1 / 10)) 1 (exB.frame.diff false 1) exV false) ≠ 0 := by decide +kernel

example : (∀ r ∈ switcherRows exB.frame (exB.opt (1 / 10)) false 1,
      ∃ s t : exB.frame.Row, (![some 0, some 1, some 0, some 1] : Fin 4 → Option ℕ) s.1 ≠ ![some 0, some 1, some 0, some 1] t.1 ∧
      (s ∈ controls exB.frame (exB.opt (1 / 10)) false 1 r ∨
        (s ∈ switcherRows exB.frame (exB.opt (1 / 10)) false 1 ∧ s ∈ peers exB.frame r)) ∧
      (t ∈ controls exB.frame (exB.opt (1 / 10)) false 1 r ∨
        (t ∈ switcherRows exB.frame (exB.opt (1 / 10)) false 1 ∧ t ∈ peers exB.frame r))) ∧
    horizonSE exVc (unitVar exB.frame (exB.opt (1 / 10)) 1 (exB.frame.diff false 1) exVc false) ≠ 0 := by
  decide +kernel

/-- Two baseline cells with a switcher and a never-switcher each, two periods; each cell is one cluster. -/
def exTwo : Balanced (Fin 4) ℕ ℚ where
  t0 := 1
  T := 2
  Y := fun i t => if i = 0 then 3 * t else if i = 1 then t else if i = 2 then 4 * t else 2 * t
  F := ![((2 : ℤ) : WithTop ℤ), ⊤, ((2 : ℤ) : WithTop ℤ), ⊤]
  cell := ![0, 0, 1, 1]
  S := ![1, 0, 1, 0]
  D := fun i t => if (i = 0 ∨ i = 2) ∧ 2 ≤ t then 1 else 0
  dsq := ![0, 0, 1, 1]
  hF := by decide +kernel

/-- One cluster per baseline cell. -/
def exTwoV : VOpt (Fin 4) ℕ ℚ where
  dfg := ![some 1, none, some 2, none]
  cluster := some ![some 0, some 0, some 1, some 1]
  less := true
  sq := id

/-- C138 (violated).  When all units of a baseline cell belong to one cluster, a shock common to the cell in one period changes
the clustered standard error; the estimate does not move. -/
theorem C138_one_cluster_violated :
    let δ : ℤ → ℕ → ℚ := fun t b => if t = 2 ∧ b = 0 then 10 else 0
    let Q := exTwo.frame.addShock (fun _ => 0) δ
    let o := exTwo.opt (1 / 10)
    estimateD Q o 1 (Q.diff false 1) = estimateD exTwo.frame o 1 (exTwo.frame.diff false 1) ∧
    horizonSE exTwoV (unitVar exTwo.frame o 1 (exTwo.frame.diff false 1) exTwoV false) = 25 ∧
    horizonSE exTwoV (unitVar Q o 1 (Q.diff false 1) exTwoV false) = 185 := by
  decide +kernel

/-! ## C140: clusters -/

/-- C140.  Renaming the clusters does not change the clustered standard error. -/
theorem C140_rename {γ' : Type*} [DecidableEq γ'] (sq : K → K) (c : ι → Option γ) (f : γ → γ') (hf : Function.Injective f)
    (ψ : ι → K) : clusteredSE sq (fun i => (c i).map f) ψ = clusteredSE sq c ψ := by
  have hk : known (fun i => (c i).map f) = known c := by
    unfold known; simp
  have hi : (known c).image (fun i => (c i).map f) = ((known c).image c).image (Option.map f) := by
    rw [image_image]; rfl
  have hinj : Function.Injective (Option.map f) := Option.map_injective hf
  unfold clusteredSE
  rw [hk, hi, card_image_of_injective _ hinj, sum_image fun a _ b _ h => hinj h]
  have : ∀ g : Option γ, (known c).filter (fun i => (c i).map f = Option.map f g) = (known c).filter fun i => c i = g := by
    intro g
    refine filter_congr fun i _ => ?_
    exact hinj.eq_iff
  simp only [this]

/-- C140.  With every unit its own cluster the formula for clustered standard errors is the one without clusters. -/
theorem C140_singletons (sq : K → K) (c : ι → Option γ) (hk : ∀ i, (c i).isSome) (hc : Function.Injective c) (ψ : ι → K) :
    clusteredSE sq c ψ = plainSE sq ψ := by
  have hkn : known c = univ := by unfold known; simp [hk]
  unfold clusteredSE plainSE
  rw [hkn, sum_image fun a _ b _ h => hc h]
  split_ifs
  · rfl
  · congr 2
    refine sum_congr rfl fun i _ => ?_
    have : (univ.filter fun j => c j = c i) = {i} := by
      ext j; simp [hc.eq_iff]
    rw [this, sum_singleton]

/-- C140.  With at least two clusters and none missing the squared standard error is the documented
`1/G^2 * sum over clusters of (sum of influence values)^2`. -/
theorem C140_documented (c : ι → γ) (hc : ∃ i j, c i ≠ c j) (ψ : ι → ℝ) :
    clusteredSE Real.sqrt (fun i => some (c i)) ψ ^ 2 =
      1 / (Fintype.card ι : ℝ) ^ 2 * ∑ g ∈ univ.image c, (∑ i ∈ univ.filter (fun i => c i = g), ψ i) ^ 2 := by
  have hkn : known (fun i => some (c i)) = univ := by unfold known; simp
  have him : (univ : Finset ι).image (fun i => some (c i)) = (univ.image c).image some := by
    rw [image_image]; rfl
  have h2 : ¬ ((univ : Finset ι).image (fun i => some (c i))).card ≤ 1 := by
    rw [not_le, one_lt_card]
    obtain ⟨i, j, hij⟩ := hc
    exact ⟨some (c i), mem_image_of_mem _ (mem_univ _), some (c j), mem_image_of_mem _ (mem_univ _), by simpa using hij⟩
  unfold clusteredSE
  rw [hkn, if_neg h2, div_pow, him, sum_image fun a _ b _ h => by simpa using h]
  simp only [Option.some.injEq]
  rw [Real.sq_sqrt (sum_nonneg fun _ _ => sq_nonneg _)]
  ring

example : clusteredSE (K := ℚ) id (fun i : Fin 3 => some (![7, 7, 8] i)) ![1, 2, 3] = 6 ∧
    (∃ i j : Fin 3, (![7, 7, 8] : Fin 3 → ℕ) i ≠ ![7, 7, 8] j) := by decide +kernel

/-- C140 (violated with a single cluster).  When all units are in one cluster the reported standard error is the one without
clusters, whatever the documented `|sum of the influence values| / G` is. -/
theorem C140_single_cluster_violated (sq : K → K) (g : γ) (ψ : ι → K) :
    clusteredSE sq (fun _ => some g) ψ = plainSE sq ψ := by
  have hkn : known (fun _ : ι => some g) = univ := by unfold known; simp
  unfold clusteredSE plainSE
  rw [hkn, if_pos]
  refine (card_le_card (image_subset_iff.2 fun i _ => mem_singleton.2 rfl)).trans ?_
  exact (card_singleton (some g)).le

example : clusteredSE (K := ℚ) id (fun _ : Fin 2 => some 0) ![3, -3] = 9 ∧ (∑ i : Fin 2, (![3, -3] : Fin 2 → ℚ) i) = 0 := by
  decide +kernel

/-- C140 (violated for units without a cluster).  Their influence values do not enter, while the divisor still counts them. -/
theorem C140_missing_cluster_violated (sq : K → K) (c : ι → Option γ) (ψ φ : ι → K) (h : ∀ i, (c i).isSome → ψ i = φ i) :
    clusteredSE sq c ψ = clusteredSE sq c φ := by
  have h1 : ∑ i ∈ known c, ψ i ^ 2 = ∑ i ∈ known c, φ i ^ 2 :=
    sum_congr rfl fun i hi => by rw [h i (by simpa [known] using hi)]
  have h2 : ∀ g, ∑ i ∈ (known c).filter (fun i => c i = g), ψ i = ∑ i ∈ (known c).filter (fun i => c i = g), φ i :=
    fun g => sum_congr rfl fun i hi => h i (by simpa [known] using (mem_filter.1 hi).1)
  unfold clusteredSE
  simp only [h1, h2]

example : clusteredSE (K := ℚ) id (![some 0, some 1, none] : Fin 3 → Option ℕ) ![1, 2, 100] = 5 / 3 := by decide +kernel

/-- One cluster per unit on the panel `exB`. -/
def exVu : VOpt (Fin 4) ℕ ℚ := { exV with cluster := some ![some 0, some 1, some 2, some 3] }

/-- Three units, periods 1 and 2: unit 0 switches at 2, unit 1 never, unit 2 never but in another baseline cell. -/
def exOne : Balanced (Fin 3) ℕ ℚ where
  t0 := 1
  T := 2
  Y := fun i t => if i = 0 then 5 * t else if i = 1 then t else 0
  F := ![((2 : ℤ) : WithTop ℤ), ⊤, ⊤]
  cell := ![0, 0, 1]
  S := ![1, 0, 0]
  D := fun i t => if i = 0 ∧ 2 ≤ t then 1 else 0
  dsq := ![0, 0, 1]
  hF := by decide +kernel

/-- C140 (violated).  The switcher rows of the period count as one more cluster of the control group, so a lone control is
taken for a group of two and its residual is 0: clustering on the unit itself gives another standard error than not clustering
(here half the variance), although the documentation says that without clustering each group is its own cluster. -/
theorem C140_unit_clusters_violated :
    let o := exOne.opt (1 / 10)
    let v : VOpt (Fin 3) ℕ ℚ := ⟨![some 1, none, none], none, true, id⟩
    let vu : VOpt (Fin 3) ℕ ℚ := { v with cluster := some ![some 0, some 1, some 2] }
    horizonSE v (unitVar exOne.frame o 1 (exOne.frame.diff false 1) v false) = 24 ∧
    horizonSE vu (unitVar exOne.frame o 1 (exOne.frame.diff false 1) vu false) = 12 := by
  decide +kernel

/-! ## C141: the covariance matrix behind the joint tests -/

/-- C141.  The diagonal of the covariance matrix used by the joint tests, in terms of the squared standard error (without
clusters) and the mean influence value. -/
theorem C141_diagonal (ψ : ι → ℝ) (hG : 2 ≤ Fintype.card ι) :
    vcovEntry ψ ψ = (Fintype.card ι : ℝ) / (Fintype.card ι - 1) *
      (plainSE Real.sqrt ψ ^ 2 - ((∑ i, ψ i) / Fintype.card ι) ^ 2 / Fintype.card ι) := by
  have h2 : (2 : ℝ) ≤ Fintype.card ι := by exact_mod_cast hG
  have h0 : (Fintype.card ι : ℝ) ≠ 0 := by linarith
  have h1 : (Fintype.card ι : ℝ) - 1 ≠ 0 := by linarith
  unfold vcovEntry plainSE
  rw [div_pow, Real.sq_sqrt (sum_nonneg fun _ _ => sq_nonneg _)]
  set m := (∑ j, ψ j) / (Fintype.card ι : ℝ) with hm
  have hs : ∑ j, ψ j = m * Fintype.card ι := by rw [hm]; field_simp
  have : ∑ i, (ψ i - m) * (ψ i - m) = ∑ i, ψ i ^ 2 - m ^ 2 * Fintype.card ι := by
    have e : ∀ i, (ψ i - m) * (ψ i - m) = ψ i ^ 2 - 2 * m * ψ i + m ^ 2 := fun i => by ring
    simp only [e, sum_add_distrib, sum_sub_distrib, ← mul_sum, hs, sum_const, card_univ, nsmul_eq_mul]
    ring
  rw [this]
  field_simp

/-- C141 (violated).  With influence values that sum to zero (cohorts and control groups of two or more) the diagonal is
`G/(G-1)` times the squared reported standard error, so the two differ whenever the standard error is not 0. -/
theorem C141_divisor_violated (ψ : ι → ℝ) (hG : 2 ≤ Fintype.card ι) (h0 : ∑ i, ψ i = 0) (hne : plainSE Real.sqrt ψ ≠ 0) :
    vcovEntry ψ ψ = (Fintype.card ι : ℝ) / (Fintype.card ι - 1) * plainSE Real.sqrt ψ ^ 2 ∧
    plainSE Real.sqrt ψ ^ 2 < vcovEntry ψ ψ := by
  have h2 : (2 : ℝ) ≤ Fintype.card ι := by exact_mod_cast hG
  have e := C141_diagonal ψ hG
  rw [h0] at e
  have e' : vcovEntry ψ ψ = (Fintype.card ι : ℝ) / (Fintype.card ι - 1) * plainSE Real.sqrt ψ ^ 2 := by
    rw [e]; ring
  refine ⟨e', ?_⟩
  rw [e']
  have hp : 0 < plainSE Real.sqrt ψ ^ 2 := by positivity
  have h1 : (0 : ℝ) < (Fintype.card ι : ℝ) - 1 := by linarith
  have : 1 < (Fintype.card ι : ℝ) / (Fintype.card ι - 1) := by rw [lt_div_iff₀ h1]; linarith
  nlinarith

example : ∑ i : Fin 2, (![1, -1] : Fin 2 → ℝ) i = 0 ∧ plainSE Real.sqrt (![1, -1] : Fin 2 → ℝ) ≠ 0 := by
  constructor
  · simp
  · unfold plainSE
    have : (0 : ℝ) < ∑ i : Fin 2, (![1, -1] : Fin 2 → ℝ) i ^ 2 := by
      simp [Fin.sum_univ_two]
    have := Real.sqrt_pos.2 this
    simp only [Fintype.card_fin]
    positivity

/-- C141 (violated with clusters).  The covariance matrix is computed from the units' influence values and ignores the
clusters: four units in two clusters of identical values have a clustered variance twice the one without clusters, the matrix
stays the same. -/
theorem C141_clusters_violated :
    clusteredSE (K := ℚ) id (![some 0, some 0, some 1, some 1] : Fin 4 → Option ℕ) ![1, 1, -1, -1] / 4 = 1 / 2 ∧
    plainSE (K := ℚ) id (![1, 1, -1, -1] : Fin 4 → ℚ) / 4 = 1 / 4 ∧
    vcovEntry (![1, 1, -1, -1] : Fin 4 → ℚ) ![1, 1, -1, -1] = 1 / 3 := by decide +kernel

/-- C141.  Normalising both horizons scales the covariance like the standard errors. -/
theorem C141_normalised (ψ φ : ι → K) (a b : K) :
    vcovEntry (fun i => ψ i / a) (fun i => φ i / b) = vcovEntry ψ φ / (a * b) := by
  unfold vcovEntry
  rw [← sum_div, ← sum_div]
  have : ∀ i, (ψ i / a - (∑ j, ψ j) / a / (Fintype.card ι : K)) * (φ i / b - (∑ j, φ j) / b / (Fintype.card ι : K)) =
      (ψ i - (∑ j, ψ j) / Fintype.card ι) * (φ i - (∑ j, φ j) / Fintype.card ι) / (a * b) := fun i => by
    field_simp
  simp only [this]
  rw [← sum_div]
  ring

example : vcovEntry (fun i => (![1, 3] : Fin 2 → ℚ) i / 2) (fun i => (![5, 1] : Fin 2 → ℚ) i / 4) = -1 / 4 ∧
    vcovEntry (![1, 3] : Fin 2 → ℚ) ![5, 1] = -2 := by decide +kernel

/-! ## C142: normalised standard errors -/

theorem horizonSE_nonneg (v : VOpt ι γ ℝ) (hsq : v.sq = Real.sqrt) (ψ : ι → ℝ) : 0 ≤ horizonSE v ψ := by
  have hG : (0 : ℝ) ≤ Fintype.card ι := by positivity
  unfold horizonSE
  cases v.cluster with
  | none => exact div_nonneg (by rw [hsq]; exact Real.sqrt_nonneg _) hG
  | some c =>
    simp only
    unfold clusteredSE
    rw [hsq]
    split_ifs <;> exact div_nonneg (Real.sqrt_nonneg _) hG

/-- C142.  Reported standard errors are not negative when the normaliser is not. -/
theorem C142_nonneg (v : VOpt ι γ ℝ) (hsq : v.sq = Real.sqrt) (ψ : ι → ℝ) (normalized : Bool) (δ : Option ℝ)
    (hδ : ∀ d, δ = some d → 0 ≤ d) : 0 ≤ normSE normalized δ (horizonSE v ψ) := by
  have := horizonSE_nonneg v hsq ψ
  unfold normSE
  cases δ with
  | none => exact this
  | some d =>
    simp only
    split_ifs
    · exact div_nonneg this (hδ d rfl)
    · exact this

example : normSE true (some (2 : ℚ)) 3 = 3 / 2 ∧ normSE false (some (2 : ℚ)) 3 = 3 := by decide +kernel

/-- C142 (violated for a negative normaliser).  The normalised standard error is negative and the reported interval runs from
its larger to its smaller bound. -/
theorem C142_negative_violated (v : VOpt ι γ ℝ) (hsq : v.sq = Real.sqrt) (ψ : ι → ℝ) (d : ℝ) (hd : d < 0)
    (hpos : horizonSE v ψ ≠ 0) (est z : ℝ) (hz : 0 < z) :
    normSE true (some d) (horizonSE v ψ) < 0 ∧
    est + z * normSE true (some d) (horizonSE v ψ) < est - z * normSE true (some d) (horizonSE v ψ) := by
  have h0 : 0 < horizonSE v ψ := lt_of_le_of_ne (horizonSE_nonneg v hsq ψ) hpos.symm
  have : normSE true (some d) (horizonSE v ψ) < 0 := by
    unfold normSE
    simp only [true_and]
    rw [if_pos hd.ne]
    exact div_neg_of_pos_of_neg h0 hd
  exact ⟨this, by nlinarith⟩

/-- The normaliser is negative in a panel the code accepts (`keep_bidirectional_switchers`, see C83), and the variance there is
positive. -/
example : deltaD exCross.frame (exCross.opt (1 / 10)) false 3 = some (-1) := by decide +kernel

/-! ## C143: the average total effect -/

/-- C143.  With one horizon and no clusters the standard error of the average total effect is that of the effect divided by
the absolute treatment change, as is the estimate up to sign. -/
theorem C143_one_horizon (ψ : ι → ℝ) (N se d1 : ℝ) (hN : 0 < N) :
    ateSE Real.sqrt (fun _ : Fin 1 => some ψ) (fun _ => N) (fun _ => se) d1 = some (plainSE Real.sqrt ψ / |d1|) := by
  have hv : (univ.filter fun _ : Fin 1 => 0 < N) = univ := by simp [hN]
  unfold ateSE
  simp only [hv, Option.isSome_some, implies_true, if_true, univ_unique, sum_singleton, Option.getD_some]
  rw [if_neg (by simp)]
  unfold plainSE
  have : ∀ i, (N / N * ψ i / d1) ^ 2 = (1 / d1) ^ 2 * ψ i ^ 2 := fun i => by
    rw [div_self hN.ne']; ring
  simp only [this]
  rw [← mul_sum, Real.sqrt_mul (sq_nonneg _), Real.sqrt_sq_eq_abs, abs_div, abs_one]
  congr 1
  ring

example : (0 : ℝ) < 3 := by norm_num

/-- C143.  If every horizon has switchers the standard error is the one of the influence values combined with the weights of
the estimate. -/
theorem C143_combines {m : ℕ} (ψ : Fin m → ι → ℝ) (N se : Fin m → ℝ) (d1 : ℝ) (hm : 0 < m) (hN : ∀ l, 0 < N l) :
    ateSE Real.sqrt (fun l => some (ψ l)) N se d1 =
      some (plainSE Real.sqrt fun i => (∑ l, N l / (∑ l', N l') * ψ l i) / d1) := by
  have hv : (univ.filter fun l : Fin m => 0 < N l) = univ := by simp [hN]
  unfold ateSE
  simp only [hv, Option.isSome_some, implies_true, if_true, Option.getD_some]
  rw [if_neg]
  · rfl
  · intro e
    exact absurd (e ▸ mem_univ (⟨0, hm⟩ : Fin m)) (notMem_empty _)

example : ateSE (K := ℚ) id (fun l : Fin 2 => some (![![1, 2], ![3, 4]] l : Fin 2 → ℚ)) ![1, 1] ![0, 0] 2 = some (13 / 8) := by
  decide +kernel

/-- C143 (violated with clusters).  The standard error of the average total effect never looks at the clusters: with one
horizon and a binary treatment the effect and the average total effect are the same number, but their standard errors are not. -/
theorem C143_clusters_violated :
    ateSE (K := ℚ) id (fun _ : Fin 1 => some (![1, 1, -1, -1] : Fin 4 → ℚ)) (fun _ => 2) (fun _ => 2) 1 = some 1 ∧
    clusteredSE (K := ℚ) id (![some 0, some 0, some 1, some 1] : Fin 4 → Option ℕ) ![1, 1, -1, -1] = 2 ∧
    ate (fun _ : Fin 1 => some (5 : ℚ)) (fun _ => 2) (fun _ => 1) = some 5 := by decide +kernel

/-- C143 (violated with a missing horizon).  A requested horizon without switchers has weight 0 and leaves the estimate alone,
but it turns the standard error into the root mean square of the horizons' standard errors: two horizons with opposite
influence values have an average known without error (0); with a third, empty, horizon the reported value is not 0. -/
theorem C143_missing_horizon_violated :
    ateSE (K := ℚ) id (fun l : Fin 2 => some (![![1, -1], ![-1, 1]] l : Fin 2 → ℚ)) ![1, 1] ![1, 1] 1 = some 0 ∧
    ateSE (K := ℚ) id (fun l : Fin 3 => (![some ![1, -1], some ![-1, 1], none] l : Option (Fin 2 → ℚ))) ![1, 1, 0] ![1, 1, 0] 1
      = some 1 ∧
    ate (fun l : Fin 2 => (![some (3 : ℚ), some 4] l)) ![1, 1] ![1, 1] =
      ate (fun l : Fin 3 => (![some (3 : ℚ), some 4, none] l)) ![1, 1, 0] ![1, 1, 0] := by
  refine ⟨by decide +kernel, by decide +kernel, by decide +kernel⟩

/-- The effects and the average total effect of one call, `compute_did_multiplegt.py:101, 385, 492-495`: `trends_lin`
cumulates the reported effects, the average total effect is computed from the unnormalised, not cumulated ones. -/
def effectsAndAte {m : ℕ} (trendsLin : Bool) (est : Fin m → Option K) (N delta : Fin m → K) : List (Option K) × Option K :=
  (if trendsLin then applyTrends (List.ofFn est) else List.ofFn est, ate est N delta)

/-- C143 (violated under `trends_lin`).  The call warns that the average total effect is not computed; it is, and it averages
the first-difference effects rather than the reported ones. -/
theorem C143_trends_lin_violated :
    effectsAndAte true (fun l : Fin 2 => (![some (1 : ℚ), some 1] l)) ![1, 1] ![1, 1] = ([some 1, some 2], some 1) := by
  decide +kernel

end Verif.Inter
