import Verif.Honest.ArpLpProps
import Verif.Honest.ArpCI

/-!
# C169: confidence intervals of `compute_arp_nuisance_ci`
-/

set_option linter.unusedSectionVars false
set_option linter.unusedSimpArgs false

namespace Verif.Honest

open MeasureTheory ProbabilityTheory Finset Matrix

variable {p q R r : ℕ} {Ω : Type*} [MeasurableSpace Ω]

/-! ## Model -/

/-- `lp_conditional_test` at one grid value: `y_t = a_matrix @ betahat - d_vec - a_gamma_inv_one * theta`,
`sigma_y = a_matrix @ sigma @ a_matrix.T`, `arp_nuisance.py:163-164,175,1343-1363`. -/
noncomputable def nuisTest (solve : (Fin r → ℝ) → Option (LpSol r q)) (dual : ℝ → (Fin r → ℝ) → (Fin r → ℝ) → Bnd ℝ × Bnd ℝ)
    (A : Matrix (Fin R) (Fin (p + (q + 1))) ℝ) (G : Matrix (Fin (q + 1)) (Fin (q + 1)) ℝ) (d : Fin R → ℝ)
    (sigma : Matrix (Fin (p + (q + 1))) (Fin (p + (q + 1))) ℝ) (rows : Fin r → Fin R) (kind : CiKind R) (alpha : ℝ)
    (betahat : Fin (p + (q + 1)) → ℝ) (theta : ℝ) : Option Bool :=
  lpTest solve dual (A * sigma * Aᵀ) (xNuis A G) rows (kind.at d (aOne A G) theta) alpha (yTheta A G d betahat theta)

/-- The result of `compute_arp_nuisance_ci`: grid with accept flags, and the interval (`none` for NaN bounds), `arp_nuisance.py:192-218`. -/
structure NuisCI where
  rows : List (ℝ × Bool)
  ci : Option (ℝ × ℝ)

/-- `grid_lb` and `grid_ub`, `arp_nuisance.py:144-149`; `lo`, `up` are the arguments, `none` if not given. -/
noncomputable def nuisRange (sigma : Matrix (Fin (p + (q + 1))) (Fin (p + (q + 1))) ℝ) (l : Fin (q + 1) → ℝ) (lo up : Option ℝ) : ℝ × ℝ :=
  let sd := Real.sqrt (l ⬝ᵥ (sigma.submatrix (Fin.natAdd p) (Fin.natAdd p) *ᵥ l))
  (lo.getD (-20 * sd), up.getD (20 * sd))

/-- `compute_arp_nuisance_ci`, `arp_nuisance.py:141-218`; `none` is a raised exception: `_construct_gamma`, an exception of the test
(simplification: on any grid value, visited or not), and the `IndexError` of `grid_spacing[0]` or of the empty grid for fewer than two
grid points. -/
noncomputable def nuisCi (solve : (Fin r → ℝ) → Option (LpSol r q)) (dual : ℝ → (Fin r → ℝ) → (Fin r → ℝ) → Bnd ℝ × Bnd ℝ)
    (A : Matrix (Fin R) (Fin (p + (q + 1))) ℝ) (d : Fin R → ℝ) (l : Fin (q + 1) → ℝ)
    (sigma : Matrix (Fin (p + (q + 1))) (Fin (p + (q + 1))) ℝ) (rows : Fin r → Fin R) (kind : CiKind R) (alpha : ℝ)
    (betahat : Fin (p + (q + 1)) → ℝ) (lo up : Option ℝ) (points : ℕ) : Option NuisCI :=
  open Classical in
  (constructGamma l).bind fun G =>
    let range := nuisRange sigma l lo up
    let grid := linGrid range.1 range.2 points
    let test := fun i => nuisTest solve dual A G d sigma rows kind alpha betahat (grid.getD i 0)
    if points < 2 ∨ ∃ i < points, test i = none then none
    else (searchBounds (fun i => decide (test i = some false)) points).map fun b =>
      match b with
      | none => { rows := grid.map fun x => (x, false), ci := none }
      | some (lb, ub) =>
        { rows := grid.mapIdx fun i x => (x, decide (lb ≤ i ∧ i ≤ ub)), ci := some (grid.getD lb 0, grid.getD ub 0) }

/-! ## Specification -/

/-- The value `theta` is in the reported interval. -/
def NuisCI.Covers (c : NuisCI) (theta : ℝ) : Prop := ∃ lo up, c.ci = some (lo, up) ∧ lo ≤ theta ∧ theta ≤ up

/-- `theta` is compatible with the coefficients `beta`: there are effects with `l'tau = theta` such that `beta - (0, tau)` satisfies
the restrictions. -/
def Compatible (A : Matrix (Fin R) (Fin (p + (q + 1))) ℝ) (d : Fin R → ℝ) (l : Fin (q + 1) → ℝ) (beta : Fin (p + (q + 1)) → ℝ) (theta : ℝ) :
    Prop :=
  ∃ τ : Fin (q + 1) → ℝ, l ⬝ᵥ τ = theta ∧ ∀ i, (A *ᵥ (beta - padPost p τ)) i ≤ d i

/-! ## Lemmas -/

theorem gaussVec_affine (P : Measure Ω) (betahat : Ω → Fin (p + (q + 1)) → ℝ) (beta : Fin (p + (q + 1)) → ℝ)
    (sigma : Matrix (Fin (p + (q + 1))) (Fin (p + (q + 1))) ℝ) (h : GaussVec P betahat beta sigma)
    (A : Matrix (Fin R) (Fin (p + (q + 1))) ℝ) (G : Matrix (Fin (q + 1)) (Fin (q + 1)) ℝ) (d : Fin R → ℝ) (theta : ℝ) :
    GaussVec P (fun ω => yTheta A G d (betahat ω) theta) (yTheta A G d beta theta) (A * sigma * Aᵀ) := by
  intro c
  set k : ℝ := -(c ⬝ᵥ d) - (c ⬝ᵥ aOne A G) * theta with hk
  have e : ∀ b, c ⬝ᵥ yTheta A G d b theta = (c ᵥ* A) ⬝ᵥ b + k := by
    intro b
    have : yTheta A G d b theta = A *ᵥ b - d - theta • aOne A G := by
      funext i
      simp only [yTheta, Pi.sub_apply, Pi.smul_apply, smul_eq_mul]
      ring
    rw [this, dotProduct_sub, dotProduct_sub, dotProduct_mulVec, dotProduct_smul, smul_eq_mul, hk]
    ring
  have hq : c ⬝ᵥ ((A * sigma * Aᵀ) *ᵥ c) = (c ᵥ* A) ⬝ᵥ (sigma *ᵥ (c ᵥ* A)) := by
    rw [← mulVec_mulVec, ← mulVec_mulVec, dotProduct_mulVec, mulVec_transpose]
  simp only [e]
  rw [hq]
  have hm : AEMeasurable (fun ω => (c ᵥ* A) ⬝ᵥ betahat ω) P := aemeasurable_of_map_neZero (by rw [h]; infer_instance)
  have e2 : (fun ω => (c ᵥ* A) ⬝ᵥ betahat ω + k) = (fun x => x + k) ∘ fun ω => (c ᵥ* A) ⬝ᵥ betahat ω := rfl
  rw [e2, ← AEMeasurable.map_map_of_aemeasurable (by fun_prop) hm, h, gaussianReal_map_add_const]

theorem grid_value (lo up : ℝ) (points i : ℕ) (h2 : 2 ≤ points) (hi : i < points) :
    (linGrid lo up points).getD i 0 = lo + (i : ℝ) * ((up - lo) / (points - 1)) := by
  unfold linGrid
  rw [List.getD_eq_getElem?_getD, List.getElem?_map, List.getElem?_range hi]
  simp only [Option.map_some, Option.getD_some]
  rw [if_neg (by omega)]

theorem grid_mono (lo up : ℝ) (points i j : ℕ) (h2 : 2 ≤ points) (hle : lo ≤ up) (hij : i ≤ j) (hj : j < points) :
    (linGrid lo up points).getD i 0 ≤ (linGrid lo up points).getD j 0 := by
  rw [grid_value lo up points i h2 (by omega), grid_value lo up points j h2 hj]
  have h1 : (0 : ℝ) ≤ (up - lo) / (points - 1) := by
    have : (2 : ℝ) ≤ points := by exact_mod_cast h2
    exact div_nonneg (by linarith) (by linarith)
  have h3 : (i : ℝ) ≤ j := by exact_mod_cast hij
  have := mul_le_mul_of_nonneg_right h3 h1
  linarith

/-- If the grid value `i` is accepted and the accepted values are contiguous, the interval contains it. -/
theorem cover_of_contiguous (solve : (Fin r → ℝ) → Option (LpSol r q)) (dual : ℝ → (Fin r → ℝ) → (Fin r → ℝ) → Bnd ℝ × Bnd ℝ)
    (A : Matrix (Fin R) (Fin (p + (q + 1))) ℝ) (d : Fin R → ℝ) (l : Fin (q + 1) → ℝ) (G : Matrix (Fin (q + 1)) (Fin (q + 1)) ℝ)
    (hG : constructGamma l = some G)
    (sigma : Matrix (Fin (p + (q + 1))) (Fin (p + (q + 1))) ℝ) (rows : Fin r → Fin R) (kind : CiKind R) (alpha : ℝ)
    (betahat : Fin (p + (q + 1)) → ℝ) (lo up : ℝ) (hle : lo ≤ up) (points : ℕ) (h2 : 2 ≤ points)
    (hret : ∀ theta, ∃ b, nuisTest solve dual A G d sigma rows kind alpha betahat theta = some b)
    (hcont : ∀ i j k, i ≤ j → j ≤ k → k < points →
      nuisTest solve dual A G d sigma rows kind alpha betahat ((linGrid lo up points).getD i 0) = some false →
      nuisTest solve dual A G d sigma rows kind alpha betahat ((linGrid lo up points).getD k 0) = some false →
      nuisTest solve dual A G d sigma rows kind alpha betahat ((linGrid lo up points).getD j 0) = some false)
    (i : ℕ) (hi : i < points)
    (hacc : nuisTest solve dual A G d sigma rows kind alpha betahat ((linGrid lo up points).getD i 0) = some false) :
    ∃ c, nuisCi solve dual A d l sigma rows kind alpha betahat (some lo) (some up) points = some c ∧
      c.Covers ((linGrid lo up points).getD i 0) := by
  classical
  unfold nuisCi
  rw [hG, Option.bind_some]
  dsimp only [nuisRange, Option.getD_some]
  rw [if_neg]
  · set test : ℕ → Bool := fun i => decide (nuisTest solve dual A G d sigma rows kind alpha betahat ((linGrid lo up points).getD i 0) = some false) with htest
    obtain ⟨rr, hr, -, -⟩ := C163_ends test points (by omega)
    have hc : Contiguous test points := by
      intro i j k h1 h2' h3 h4 h5
      simp only [htest, decide_eq_true_eq] at h4 h5 ⊢
      exact hcont i j k h1 h2' h3 h4 h5
    have hex := (C163_exact test points (by omega) hc rr hr i hi).1 (by simpa [htest] using hacc)
    obtain ⟨lb, ub, rfl, hlb, hub⟩ := hex
    obtain ⟨r', hr', -, h2'⟩ := C163_ends test points (by omega)
    rw [hr] at hr'
    cases hr'
    have hb := h2' lb ub rfl
    refine ⟨_, by rw [hr]; rfl, _, _, rfl, ?_, ?_⟩
    · exact grid_mono lo up points lb i h2 hle hlb hi
    · exact grid_mono lo up points i ub h2 hle hub (by omega)
  · rintro (h | ⟨j, _, h⟩)
    · omega
    · obtain ⟨b, hb⟩ := hret ((linGrid lo up points).getD j 0)
      rw [hb] at h
      cases h

/-! ## C169 -/

/-- The accepted grid values are contiguous. -/
def ContiguousAccept (solve : (Fin r → ℝ) → Option (LpSol r q)) (dual : ℝ → (Fin r → ℝ) → (Fin r → ℝ) → Bnd ℝ × Bnd ℝ)
    (A : Matrix (Fin R) (Fin (p + (q + 1))) ℝ) (G : Matrix (Fin (q + 1)) (Fin (q + 1)) ℝ) (d : Fin R → ℝ)
    (sigma : Matrix (Fin (p + (q + 1))) (Fin (p + (q + 1))) ℝ) (rows : Fin r → Fin R) (kind : CiKind R) (alpha : ℝ)
    (betahat : Fin (p + (q + 1)) → ℝ) (lo up : ℝ) (points : ℕ) : Prop :=
  ∀ i j k, i ≤ j → j ≤ k → k < points →
    nuisTest solve dual A G d sigma rows kind alpha betahat ((linGrid lo up points).getD i 0) = some false →
    nuisTest solve dual A G d sigma rows kind alpha betahat ((linGrid lo up points).getD k 0) = some false →
    nuisTest solve dual A G d sigma rows kind alpha betahat ((linGrid lo up points).getD j 0) = some false

/-- What the first stage of the hybrids needs, for the coefficient vector: nothing for the conditional test; for the least-favourable
hybrid the value of the program at the estimation errors exceeds the critical value with probability at most `kappa`; for the hybrid
with a fixed-length interval the interval around `(vbar'A) beta_hat` misses `theta` with probability at most `kappa`. -/
def FirstStage (P : Measure Ω) (betahat : Ω → Fin (p + (q + 1)) → ℝ) (beta : Fin (p + (q + 1)) → ℝ)
    (sigma : Matrix (Fin (p + (q + 1))) (Fin (p + (q + 1))) ℝ) (A : Matrix (Fin R) (Fin (p + (q + 1))) ℝ)
    (G : Matrix (Fin (q + 1)) (Fin (q + 1)) ℝ) (rows : Fin r → Fin R) (alpha theta : ℝ) : CiKind R → Prop
  | CiKind.arp => True
  | CiKind.lf kappa cv => 0 ≤ kappa ∧ kappa < alpha ∧
      P {ω | ∃ g ∈ DualSet ((A * sigma * Aᵀ).submatrix rows rows) ((xNuis A G).submatrix rows id),
        cv < ∑ t, g t * (A *ᵥ (betahat ω - beta)) (rows t)} ≤ ENNReal.ofReal kappa
  | CiKind.flci kappa half vbar => 0 ≤ kappa ∧ kappa < alpha ∧
      P {ω | half < |(vbar ᵥ* A) ⬝ᵥ betahat ω - theta|} ≤ ENNReal.ofReal kappa

/-- The probability that a compatible value is rejected. -/
theorem C169_test (P : Measure Ω) (betahat : Ω → Fin (p + (q + 1)) → ℝ) (beta : Fin (p + (q + 1)) → ℝ)
    (solve : (Fin r → ℝ) → Option (LpSol r q)) (dual : ℝ → (Fin r → ℝ) → (Fin r → ℝ) → Bnd ℝ × Bnd ℝ)
    (A : Matrix (Fin R) (Fin (p + (q + 1))) ℝ) (d : Fin R → ℝ) (l : Fin (q + 1) → ℝ) (G : Matrix (Fin (q + 1)) (Fin (q + 1)) ℝ)
    (sigma : Matrix (Fin (p + (q + 1))) (Fin (p + (q + 1))) ℝ) (rows : Fin r → Fin R) (kind : CiKind R) (alpha theta : ℝ)
    (hG : constructGamma l = some G) (hbeta : GaussVec P betahat beta sigma) (hcomp : Compatible A d l beta theta)
    (hreg : RegularLp (A * sigma * Aᵀ) (xNuis A G) rows)
    (hsol : SolverOk ((A * sigma * Aᵀ).submatrix rows rows) ((xNuis A G).submatrix rows id) solve)
    (hdual : DualOk dual ((A * sigma * Aᵀ).submatrix rows rows) ((xNuis A G).submatrix rows id))
    (hfirst : FirstStage P betahat beta sigma A G rows alpha theta kind) (ha0 : 0 < alpha) (ha1 : alpha < 1) :
    P.real {ω | nuisTest solve dual A G d sigma rows kind alpha (betahat ω) theta = some true} ≤ alpha := by
  have hy := gaussVec_affine P betahat beta sigma hbeta A G d theta
  obtain ⟨τ, h1, h2⟩ := hcomp
  obtain ⟨delta, hn⟩ := (C164_null l G hG A d beta theta Set.univ).2 ⟨τ, h1, fun i _ => h2 i⟩
  have hnull : ∃ delta, ∀ t, yTheta A G d beta theta (rows t) ≤ (xNuis A G *ᵥ delta) (rows t) := ⟨delta, fun t => hn (rows t) trivial⟩
  cases kind with
  | arp => exact C166_size P _ _ solve dual _ _ rows alpha hy hnull hreg hsol hdual ha0 ha1
  | lf kappa cv =>
    obtain ⟨hk0, hk, hf⟩ := hfirst
    refine C167_size P _ _ solve dual _ _ rows alpha kappa cv hy hnull hreg hsol hdual hk0 hk ha1 ?_
    refine le_trans (le_of_eq ?_) hf
    congr 1
    ext ω
    simp only [Set.mem_ofPred_eq]
    have e : ∀ t, yTheta A G d (betahat ω) theta (rows t) - yTheta A G d beta theta (rows t) = (A *ᵥ (betahat ω - beta)) (rows t) := by
      intro t
      rw [mulVec_sub, Pi.sub_apply]
      unfold yTheta
      ring
    simp only [e]
  | flci kappa half vbar =>
    obtain ⟨hk0, hk, hf⟩ := hfirst
    refine C168_size P _ _ solve dual _ _ rows alpha kappa vbar _ hy hnull hreg hsol hdual hk0 hk ha1 ?_
    refine le_trans (measure_mono ?_) hf
    intro ω hω
    have e : vbar ⬝ᵥ yTheta A G d (betahat ω) theta = (vbar ᵥ* A) ⬝ᵥ betahat ω - vbar ⬝ᵥ d - (vbar ⬝ᵥ aOne A G) * theta := by
      have : yTheta A G d (betahat ω) theta = A *ᵥ betahat ω - d - theta • aOne A G := by
        funext i
        simp only [yTheta, Pi.sub_apply, Pi.smul_apply, smul_eq_mul]
        ring
      rw [this, dotProduct_sub, dotProduct_sub, dotProduct_mulVec, dotProduct_smul, smul_eq_mul]
      ring
    show half < |(vbar ᵥ* A) ⬝ᵥ betahat ω - theta|
    rw [lt_abs]
    rcases hω with h | h
    · left
      have h' : half - vbar ⬝ᵥ d + (1 - vbar ⬝ᵥ aOne A G) * theta < vbar ⬝ᵥ yTheta A G d (betahat ω) theta := h
      rw [e] at h'
      linarith
    · right
      have h' : half + vbar ⬝ᵥ d - (1 - vbar ⬝ᵥ aOne A G) * theta < -(vbar ⬝ᵥ yTheta A G d (betahat ω) theta) := h
      rw [e] at h'
      linarith

/-- C169.  Coverage of `compute_arp_nuisance_ci`: for a compatible value `theta` on the grid, the probability that the accepted grid
values are contiguous and the interval does not contain `theta` is at most `alpha`. -/
theorem C169_coverage (P : Measure Ω) [IsProbabilityMeasure P] (betahat : Ω → Fin (p + (q + 1)) → ℝ) (beta : Fin (p + (q + 1)) → ℝ)
    (solve : (Fin r → ℝ) → Option (LpSol r q)) (dual : ℝ → (Fin r → ℝ) → (Fin r → ℝ) → Bnd ℝ × Bnd ℝ)
    (A : Matrix (Fin R) (Fin (p + (q + 1))) ℝ) (d : Fin R → ℝ) (l : Fin (q + 1) → ℝ) (G : Matrix (Fin (q + 1)) (Fin (q + 1)) ℝ)
    (sigma : Matrix (Fin (p + (q + 1))) (Fin (p + (q + 1))) ℝ) (rows : Fin r → Fin R) (kind : CiKind R) (alpha : ℝ)
    (hG : constructGamma l = some G) (hbeta : GaussVec P betahat beta sigma)
    (hreg : RegularLp (A * sigma * Aᵀ) (xNuis A G) rows)
    (hsol : SolverOk ((A * sigma * Aᵀ).submatrix rows rows) ((xNuis A G).submatrix rows id) solve)
    (hbasic : ∀ u s, solve u = some s → s.lam ∈ DualVertex ((A * sigma * Aᵀ).submatrix rows rows) ((xNuis A G).submatrix rows id))
    (hdual : DualOk dual ((A * sigma * Aᵀ).submatrix rows rows) ((xNuis A G).submatrix rows id))
    (lo up : ℝ) (hle : lo ≤ up) (points : ℕ) (h2 : 2 ≤ points) (i : ℕ) (hi : i < points)
    (hcomp : Compatible A d l beta (lo + (i : ℝ) * ((up - lo) / (points - 1))))
    (hfirst : FirstStage P betahat beta sigma A G rows alpha (lo + (i : ℝ) * ((up - lo) / (points - 1))) kind)
    (ha0 : 0 < alpha) (ha1 : alpha < 1) :
    P.real {ω | ContiguousAccept solve dual A G d sigma rows kind alpha (betahat ω) lo up points ∧
      ¬ ∃ c, nuisCi solve dual A d l sigma rows kind alpha (betahat ω) (some lo) (some up) points = some c ∧
        c.Covers (lo + (i : ℝ) * ((up - lo) / (points - 1)))} ≤ alpha := by
  have key := C169_test P betahat beta solve dual A d l G sigma rows kind alpha _ hG hbeta hcomp hreg hsol hdual hfirst ha0 ha1
  refine le_trans (measureReal_mono ?_) key
  rintro ω ⟨hc, hn⟩
  have hret : ∀ theta, ∃ b, nuisTest solve dual A G d sigma rows kind alpha (betahat ω) theta = some b := fun theta =>
    C165_returns solve dual _ _ rows _ alpha _ hreg hbasic
  obtain ⟨b, hb⟩ := hret (lo + (i : ℝ) * ((up - lo) / (points - 1)))
  cases b with
  | true => exact hb
  | false =>
    exfalso
    rw [← grid_value lo up points i h2 hi] at hb hn
    exact hn (cover_of_contiguous solve dual A d l G hG sigma rows kind alpha (betahat ω) lo up hle points h2 hret hc i hi hb)

/-! A case: one pre-period, two post-periods, the target is the first effect; three restrictions on differences in trends. -/

/-- The restrictions. -/
def a3 : Matrix (Fin 3) (Fin (1 + (1 + 1))) ℝ := ![![1, 1, 1], ![1, -1, -1], ![0, 2, -1]]

/-- The covariance matrix of the coefficients. -/
noncomputable def s3 : Matrix (Fin (1 + (1 + 1))) (Fin (1 + (1 + 1))) ℝ := Matrix.diagonal ![1 / 2, 1 / 6, 1 / 3]

theorem gamma3 : constructGamma (![1, 0] : Fin 2 → ℝ) = some 1 := by
  have h0 : dropIdx (![1, 0] : Fin 2 → ℝ) = 0 := by
    by_contra h
    have h1 : dropIdx (![1, 0] : Fin 2 → ℝ) = 1 := by
      generalize dropIdx (![1, 0] : Fin 2 → ℝ) = m at h ⊢
      fin_cases m
      · exact absurd rfl h
      · rfl
    have := drop_max (![1, 0] : Fin 2 → ℝ) 0
    rw [h1] at this
    norm_num at this
  have h1 : gammaMat (![1, 0] : Fin 2 → ℝ) = 1 := by
    ext r i
    refine Fin.cases ?_ (fun r' => ?_) r
    · rw [gamma_zero]; fin_cases i <;> rfl
    · rw [gamma_succ, h0, Fin.succAbove_zero]
      rw [one_apply]
      simp only [eq_comm]
  classical
  unfold constructGamma
  rw [h1, det_one, if_neg (by norm_num)]

theorem asa3 : a3 * s3 * a3ᵀ = 1 := by
  ext i j
  rw [mul_apply]
  simp only [s3, mul_diagonal, transpose_apply]
  show ∑ k : Fin 3, _ = _
  rw [Fin.sum_univ_three]
  fin_cases i <;> fin_cases j <;> norm_num [a3, vec3_two, one_apply]

theorem xn3 : xNuis (p := 1) a3 (1 : Matrix (Fin 2) (Fin 2) ℝ) = x3 := by
  ext i j
  have e : aGammaInv (p := 1) a3 (1 : Matrix (Fin 2) (Fin 2) ℝ) = a3.submatrix id (Fin.natAdd 1) := by
    rw [aGammaInv, inv_one]
    exact Matrix.mul_one _
  unfold xNuis
  rw [e, submatrix_apply]
  fin_cases i <;> fin_cases j <;> rfl

/-- Independent normal coefficients with these variances. -/
theorem gaussS3 (mu : Fin 3 → ℝ) :
    GaussVec (stdNormals 3) (fun z i => mu i + Real.sqrt ((![1 / 2, 1 / 6, 1 / 3] : Fin 3 → ℝ) i) * z i) mu s3 := by
  intro c
  have h := lin_law 3 (c ⬝ᵥ mu) fun i => c i * Real.sqrt ((![1 / 2, 1 / 6, 1 / 3] : Fin 3 → ℝ) i)
  have e : (fun z : Fin 3 → ℝ => c ⬝ᵥ fun i => mu i + Real.sqrt ((![1 / 2, 1 / 6, 1 / 3] : Fin 3 → ℝ) i) * z i) =
      fun z => c ⬝ᵥ mu + ∑ r, c r * Real.sqrt ((![1 / 2, 1 / 6, 1 / 3] : Fin 3 → ℝ) r) * z r := by
    funext z
    simp only [dotProduct, mul_add, sum_add_distrib, mul_assoc]
  have e2 : c ⬝ᵥ (s3 *ᵥ c) = ∑ r, (c r * Real.sqrt ((![1 / 2, 1 / 6, 1 / 3] : Fin 3 → ℝ) r)) ^ 2 := by
    rw [dotProduct]
    refine sum_congr rfl fun i _ => ?_
    rw [s3, mulVec_diagonal, mul_pow, Real.sq_sqrt]
    · ring
    · fin_cases i <;> norm_num [vec3_two]
  rw [e, e2]
  exact h

/-- The effects are `(1, 2)` and the difference in trends `(1, 0, 0)`, on the boundary of two restrictions.  The value 1 is on the grid
`-2, -1, ..., 2`: up to non-contiguous acceptance the interval misses it with probability at most 5%. -/
example (dual : ℝ → (Fin 3 → ℝ) → (Fin 3 → ℝ) → Bnd ℝ × Bnd ℝ) :
    (stdNormals 3).real {z | ContiguousAccept solve3 dual a3 1 ![1, 1, 0] s3 id CiKind.arp (1 / 20)
        (fun i => (![1, 1, 2] : Fin 3 → ℝ) i + Real.sqrt ((![1 / 2, 1 / 6, 1 / 3] : Fin 3 → ℝ) i) * z i) (-2) 2 5 ∧
      ¬ ∃ c, nuisCi solve3 dual a3 ![1, 1, 0] ![1, 0] s3 id CiKind.arp (1 / 20)
        (fun i => (![1, 1, 2] : Fin 3 → ℝ) i + Real.sqrt ((![1 / 2, 1 / 6, 1 / 3] : Fin 3 → ℝ) i) * z i) (some (-2)) (some 2) 5 = some c ∧
        c.Covers 1} ≤ 1 / 20 := by
  have hv : (-2 : ℝ) + ((3 : ℕ) : ℝ) * ((2 - -2) / ((5 : ℕ) - 1)) = 1 := by norm_num
  have : IsProbabilityMeasure (stdNormals 3) := by unfold stdNormals; infer_instance
  have hS : (a3 * s3 * a3ᵀ).submatrix id id = 1 := by rw [asa3, Matrix.submatrix_id_id]
  have hX : (xNuis (p := 1) a3 (1 : Matrix (Fin 2) (Fin 2) ℝ)).submatrix id id = x3 := by rw [xn3, Matrix.submatrix_id_id]
  have key := C169_coverage (p := 1) (q := 1) (stdNormals 3) _ ![1, 1, 2] solve3 dual a3 ![1, 1, 0] ![1, 0] 1 s3 id CiKind.arp (1 / 20) gamma3
    (gaussS3 _) (by rw [asa3, xn3]; exact regular3) (by rw [hS, hX]; exact solver3) ?_ (by rw [hS, hX]; exact dual3_ok dual) (-2) 2 (by norm_num)
    5 (by norm_num) 3 (by norm_num) ?_ trivial (by norm_num) (by norm_num)
  · rw [hv] at key
    exact key
  · intro u s h
    rw [hS, hX]
    simp only [solve3, Option.some.injEq] at h
    rw [← h]
    dsimp only
    split_ifs
    · exact vert3_mem.1
    · exact vert3_mem.2
  · rw [hv]
    refine ⟨![1, 2], by simp [dotProduct, Fin.sum_univ_two], fun i => ?_⟩
    have e : (![1, 1, 2] : Fin 3 → ℝ) - padPost 1 ![1, 2] = ![1, 0, 0] := by
      funext i
      rw [Pi.sub_apply]
      unfold padPost
      fin_cases i <;> simp [Fin.append, Fin.addCases, vec3_two]
    have e' : ((![1, 1, 2] : Fin (1 + (1 + 1)) → ℝ) - padPost 1 ![1, 2]) = ![1, 0, 0] := e
    rw [e', mulVec, dotProduct]
    show ∑ k : Fin 3, _ ≤ _
    rw [Fin.sum_univ_three]
    fin_cases i <;> norm_num [a3, vec3_two]

end Verif.Honest
