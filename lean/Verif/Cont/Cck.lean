import Verif.Npiv.Band

/-!
# C233, C234: `cont_did(dose_est_method="cck")`

`didcont/cont_did.py:706-865`: two groups and two periods; the outcome changes of the treated, centred at the mean change of the untreated,
are fitted on a B-spline basis in the dose by the sieve estimator of `didcont/npiv`.
-/

set_option linter.unusedSectionVars false
set_option linter.unusedSimpArgs false

namespace Verif.Cont.Cck

open Matrix Verif.Npiv.Sel

variable {T C E J : Type} [Fintype T] [Fintype C] [Fintype E] [Fintype J] [Nonempty E]

/-! ## Model -/

/-- `n_groups != 2 or len(unique_times) != 2`, `cont_did.py:711-719`: the call goes on only with one treated group (besides the untreated)
and two periods. -/
def cckAllowed (treatedGroups times : List ℕ) : Bool := !(decide (treatedGroups.length + 1 ≠ 2) || decide (times.length ≠ 2))

/-- `m0 = np.mean(dy[dose == 0])`, `cont_did.py:731`. -/
noncomputable def m0 (dyC : C → ℝ) : ℝ := (∑ i, dyC i) / Fintype.card C

/-- `dy_centered[dose > 0]`, `cont_did.py:721-732`: changes between the two periods, minus the mean change of the untreated. -/
noncomputable def centred (preT postT : T → ℝ) (preC postC : C → ℝ) (i : T) : ℝ :=
  (postT i - preT i) - m0 fun j => postC j - preC j

/-- `att_d`, `cont_did.py:744-756`; `F` is the fit of the treated on their doses (its basis, its basis at `dvals`, and the matrix from outcomes
to coefficients). -/
noncomputable def attD (F : Fit T E J) (preT postT : T → ℝ) (preC postC : C → ℝ) : E → ℝ := F.h (centred preT postT preC postC)

/-- `att_d_se`, `cont_did.py:757`. -/
noncomputable def attSe (F : Fit T E J) (preT postT : T → ℝ) (preC postC : C → ℝ) : E → ℝ := F.se (centred preT postT preC postC)

/-- The fit with the derivative of the basis at `dvals`: `acrt_d` is its estimate, `acrt_d_se` its standard error, `cont_did.py:769-770`,
`npiv/estimators.py:361-365`. -/
def derivFit (F : Fit T E J) (dEval : Matrix E J ℝ) : Fit T E J := { F with psiEval := dEval }

/-- `acrt_d`, `cont_did.py:769`. -/
noncomputable def acrtD (F : Fit T E J) (dEval : Matrix E J ℝ) (preT postT : T → ℝ) (preC postC : C → ℝ) : E → ℝ :=
  attD (derivFit F dEval) preT postT preC postC

/-- `acrt_d_se`, `cont_did.py:770`. -/
noncomputable def acrtSe (F : Fit T E J) (dEval : Matrix E J ℝ) (preT postT : T → ℝ) (preC postC : C → ℝ) : E → ℝ :=
  attSe (derivFit F dEval) preT postT preC postC

/-- `deriv_at_w`, `cont_did.py:824-836`; `D` is the derivative of the basis at the doses of the treated. -/
noncomputable def derivAt (F : Fit T E J) (D : Matrix T J ℝ) (y : T → ℝ) : T → ℝ := D *ᵥ (F.tmp *ᵥ y)

/-- `average_acr`, `cont_did.py:838`. -/
noncomputable def avgAcr (F : Fit T E J) (D : Matrix T J ℝ) (y : T → ℝ) : ℝ := (∑ i, derivAt F D y i) / Fintype.card T

/-- `average_spline_deriv`, `cont_did.py:835`. -/
noncomputable def avgDeriv (D : Matrix T J ℝ) (j : J) : ℝ := (∑ i, D i j) / Fintype.card T

/-- `infl_reg`, `cont_did.py:819-822`; `Q` is the (pseudo-)inverse of the normalised Gram matrix.  The basis rebuilt at lines 799-808 is the
one of the fit (the knots are the same quantiles), so it is taken from `F`. -/
noncomputable def inflReg (F : Fit T E J) (Q : Matrix J J ℝ) (y : T → ℝ) (i : T) (j : J) : ℝ := F.u y i * (F.psi * Q) i j

/-- `infl_avg_acr`, `cont_did.py:839`. -/
noncomputable def inflAvg (F : Fit T E J) (D : Matrix T J ℝ) (Q : Matrix J J ℝ) (y : T → ℝ) (i : T) : ℝ :=
  (derivAt F D y i - avgAcr F D y) + ∑ j, inflReg F Q y i j * avgDeriv D j

/-- `se_avg_acr`, `cont_did.py:840`: `np.std(infl) / np.sqrt(n)`. -/
noncomputable def seAvg (F : Fit T E J) (D : Matrix T J ℝ) (Q : Matrix J J ℝ) (y : T → ℝ) : ℝ :=
  Real.sqrt ((∑ i, (inflAvg F D Q y i - (∑ k, inflAvg F D Q y k) / Fintype.card T) ^ 2) / Fintype.card T) / Real.sqrt (Fintype.card T)

/-- `att_d_crit_val`, `cont_did.py:744-767`: with `cband` it is recovered from the upper band at the first dose.  `upper` is the upper band
of `npiv` as a function of its argument `alpha`, which the call leaves at its default 0.05 (`npiv.py:18`); `z` is the normal critical value
as a function of the level. -/
noncomputable def critVal (cband : Bool) (alp : ℝ) (upper : ℝ → E → ℝ) (h se : E → ℝ) (first : E) (z : ℝ → ℝ) : ℝ :=
  if cband then (if 0 < se first then (upper (5 / 100) first - h first) / se first else z alp) else z alp

/-! ## Specification -/

/-- The fit is least squares with a basis of full rank. -/
structure IsOls [DecidableEq J] (F : Fit T E J) : Prop where
  left : F.tmp * F.psi = 1
  normal : F.psiᵀ * (F.psi * F.tmp) = F.psiᵀ

/-- A B-spline basis with intercept: the functions add up to one at the doses and at the evaluation points. -/
structure PartitionOfUnity (F : Fit T E J) : Prop where
  data : ∀ i, ∑ j, F.psi i j = 1
  eval : ∀ e, ∑ j, F.psiEval e j = 1

/-! ## Lemmas -/

theorem h_add (F : Fit T E J) (y z : T → ℝ) (e : E) : F.h (y + z) e = F.h y e + F.h z e := by
  unfold Fit.h
  rw [mulVec_add, mulVec_add]
  rfl

theorem h_span [DecidableEq J] (F : Fit T E J) (hF : F.tmp * F.psi = 1) (b : J → ℝ) (e : E) : F.h (F.psi *ᵥ b) e = (F.psiEval *ᵥ b) e := by
  unfold Fit.h
  rw [mulVec_mulVec b F.tmp, hF, one_mulVec]

theorem u_add_span [DecidableEq J] (F : Fit T E J) (hF : F.tmp * F.psi = 1) (y : T → ℝ) (b : J → ℝ) : F.u (y + F.psi *ᵥ b) = F.u y := by
  unfold Fit.u
  rw [mulVec_add, mulVec_mulVec, hF, one_mulVec, mulVec_add]
  abel

theorem const_span (F : Fit T E J) (hp : PartitionOfUnity F) (c : ℝ) : (fun _ => c) = F.psi *ᵥ fun _ => c := by
  funext i
  show c = ∑ j, F.psi i j * c
  rw [← Finset.sum_mul, hp.data, one_mul]

theorem se_add_span [DecidableEq J] (F : Fit T E J) (hF : F.tmp * F.psi = 1) (y : T → ℝ) (b : J → ℝ) (e : E) :
    F.se (y + F.psi *ᵥ b) e = F.se y e := by
  unfold Fit.se
  rw [var_eq, var_eq]
  unfold Fit.inf
  rw [u_add_span F hF]

theorem centred_eq (preT postT : T → ℝ) (preC postC : C → ℝ) :
    centred preT postT preC postC = (fun i => postT i - preT i) + fun _ => -m0 fun j => postC j - preC j := by
  funext i
  simp only [centred, Pi.add_apply]
  ring

theorem m0_add [Nonempty C] (d : C → ℝ) (c : ℝ) : (m0 fun j => d j + c) = m0 d + c := by
  unfold m0
  rw [Finset.sum_add_distrib, Finset.sum_const, Finset.card_univ, nsmul_eq_mul, add_div, mul_div_cancel_left₀]
  exact_mod_cast Fintype.card_ne_zero

/-- The fit of the centred outcome is the fit of the changes minus the mean change of the untreated. -/
theorem attD_eq [DecidableEq J] (F : Fit T E J) (hF : F.tmp * F.psi = 1) (hp : PartitionOfUnity F) (preT postT : T → ℝ) (preC postC : C → ℝ)
    (e : E) : attD F preT postT preC postC e = F.h (fun i => postT i - preT i) e - m0 fun j => postC j - preC j := by
  unfold attD
  rw [centred_eq, const_span F hp, h_add, h_span F hF]
  show _ + ∑ j, F.psiEval e j * _ = _
  rw [← Finset.sum_mul, hp.eval]
  ring

theorem attSe_eq [DecidableEq J] (F : Fit T E J) (hF : F.tmp * F.psi = 1) (hp : PartitionOfUnity F) (preT postT : T → ℝ) (preC postC : C → ℝ)
    (e : E) : attSe F preT postT preC postC e = F.se (fun i => postT i - preT i) e := by
  unfold attSe
  rw [centred_eq, const_span F hp, se_add_span F hF]

theorem acrtD_eq [DecidableEq J] (F : Fit T E J) (hF : F.tmp * F.psi = 1) (hp : PartitionOfUnity F) (dEval : Matrix E J ℝ)
    (hd : ∀ e, ∑ j, dEval e j = 0) (preT postT : T → ℝ) (preC postC : C → ℝ)
    (e : E) : acrtD F dEval preT postT preC postC e = (derivFit F dEval).h (fun i => postT i - preT i) e := by
  unfold acrtD attD
  rw [centred_eq, const_span F hp, h_add]
  have := h_span (derivFit F dEval) hF (fun _ => -m0 fun j => postC j - preC j) e
  rw [show (derivFit F dEval).h (F.psi *ᵥ fun _ => -m0 fun j => postC j - preC j) e = _ from this]
  show _ + ∑ j, dEval e j * _ = _
  rw [← Finset.sum_mul, hd]
  ring

/-! ## C233 -/

/-- **C233.**  The estimator runs exactly for one treated group and two periods. -/
theorem C233_two_by_two (treatedGroups times : List ℕ) :
    cckAllowed treatedGroups times = true ↔ treatedGroups.length = 1 ∧ times.length = 2 := by
  simp [cckAllowed]

/-- **C233.**  The estimates are differences in differences: unit effects (in both periods) and a common change of all units drop out of the
dose responses, of their derivatives and of the standard errors. -/
theorem C233_parallel_shift [DecidableEq J] [Nonempty C] (F : Fit T E J) (hF : F.tmp * F.psi = 1) (hp : PartitionOfUnity F) (dEval : Matrix E J ℝ)
    (hd : ∀ e, ∑ j, dEval e j = 0) (preT postT : T → ℝ) (preC postC : C → ℝ) (aT : T → ℝ) (aC : C → ℝ) (c : ℝ) (e : E) :
    attD F (fun i => preT i + aT i) (fun i => postT i + aT i + c) (fun j => preC j + aC j) (fun j => postC j + aC j + c) e =
      attD F preT postT preC postC e ∧
    attSe F (fun i => preT i + aT i) (fun i => postT i + aT i + c) (fun j => preC j + aC j) (fun j => postC j + aC j + c) e =
      attSe F preT postT preC postC e ∧
    acrtD F dEval (fun i => preT i + aT i) (fun i => postT i + aT i + c) (fun j => preC j + aC j) (fun j => postC j + aC j + c) e =
      acrtD F dEval preT postT preC postC e := by
  have h : centred (fun i => preT i + aT i) (fun i => postT i + aT i + c) (fun j => preC j + aC j) (fun j => postC j + aC j + c) =
      centred preT postT preC postC := by
    funext i
    unfold centred
    have : (fun j => postC j + aC j + c - (preC j + aC j)) = fun j => (postC j - preC j) + c := by funext j; ring
    rw [this, m0_add]
    ring
  unfold acrtD attSe attD
  rw [h]
  exact ⟨rfl, rfl, rfl⟩

/-- **C233.**  Exactness: if the untreated all change by `δ` and a treated unit with dose `d` changes by `δ + g(d)` with `g` in the span of the
splines, the estimated dose response is `g`, its derivative `g'`, the average derivative the mean of `g'` over the treated, and the
standard errors of the dose response vanish. -/
theorem C233_exact [DecidableEq J] [Nonempty C] (F : Fit T E J) (hF : F.tmp * F.psi = 1) (hp : PartitionOfUnity F) (dEval : Matrix E J ℝ)
    (D : Matrix T J ℝ) (preT : T → ℝ) (preC : C → ℝ) (δ : ℝ) (b : J → ℝ) (e : E) :
    attD F preT (fun i => preT i + δ + (F.psi *ᵥ b) i) preC (fun j => preC j + δ) e = (F.psiEval *ᵥ b) e ∧
    acrtD F dEval preT (fun i => preT i + δ + (F.psi *ᵥ b) i) preC (fun j => preC j + δ) e = (dEval *ᵥ b) e ∧
    attSe F preT (fun i => preT i + δ + (F.psi *ᵥ b) i) preC (fun j => preC j + δ) e = 0 ∧
    avgAcr F D (centred preT (fun i => preT i + δ + (F.psi *ᵥ b) i) preC fun j => preC j + δ) = (∑ i, (D *ᵥ b) i) / Fintype.card T := by
  have h : centred preT (fun i => preT i + δ + (F.psi *ᵥ b) i) preC (fun j => preC j + δ) = F.psi *ᵥ b := by
    funext i
    unfold centred
    have : (fun j => preC j + δ - preC j) = fun _ : C => (fun _ => (0 : ℝ)) () + δ := by funext j; simp
    rw [this, m0_add]
    simp [m0]
    ring
  refine ⟨?_, ?_, ?_, ?_⟩
  · unfold attD; rw [h]; exact h_span F hF b e
  · unfold acrtD attD; rw [h]; exact h_span (derivFit F dEval) hF b e
  · unfold attSe
    rw [h]
    have := se_add_span F hF 0 b e
    rw [zero_add] at this
    rw [this]
    unfold Fit.se
    rw [var_eq]
    unfold Fit.inf Fit.u
    simp
  · unfold avgAcr derivAt
    rw [h, mulVec_mulVec b F.tmp, hF, one_mulVec]

/-- **C233, violated.**  The standard errors of the dose response ignore the sampling error of the untreated mean: whatever the outcomes of the
untreated, the standard errors (hence the bands) are the same, while the estimates move one for one with the mean change of the untreated. -/
theorem C233_untreated_ignored_violated [DecidableEq J] (F : Fit T E J) (hF : F.tmp * F.psi = 1) (hp : PartitionOfUnity F)
    (preT postT : T → ℝ) (preC postC preC' postC' : C → ℝ) (e : E) :
    attSe F preT postT preC postC e = attSe F preT postT preC' postC' e ∧
    attD F preT postT preC postC e - attD F preT postT preC' postC' e =
      (∑ j, (postC' j - preC' j)) / Fintype.card C - (∑ j, (postC j - preC j)) / Fintype.card C := by
  rw [attSe_eq F hF hp, attSe_eq F hF hp, attD_eq F hF hp, attD_eq F hF hp]
  refine ⟨rfl, ?_⟩
  unfold m0
  ring

/-- **C233.**  The derivative of the dose response does not depend on the untreated. -/
theorem C233_acrt_untreated [DecidableEq J] (F : Fit T E J) (hF : F.tmp * F.psi = 1) (hp : PartitionOfUnity F) (dEval : Matrix E J ℝ)
    (hd : ∀ e, ∑ j, dEval e j = 0) (preT postT : T → ℝ) (preC postC preC' postC' : C → ℝ) (e : E) :
    acrtD F dEval preT postT preC postC e = acrtD F dEval preT postT preC' postC' e ∧
    acrtSe F dEval preT postT preC postC e = acrtSe F dEval preT postT preC' postC' e := by
  refine ⟨by rw [acrtD_eq F hF hp dEval hd, acrtD_eq F hF hp dEval hd], ?_⟩
  unfold acrtSe attSe
  rw [centred_eq, centred_eq, const_span F hp, const_span F hp]
  rw [show (derivFit F dEval).se ((fun i => postT i - preT i) + F.psi *ᵥ _) e = _ from se_add_span (derivFit F dEval) hF _ _ e,
    show (derivFit F dEval).se ((fun i => postT i - preT i) + F.psi *ᵥ _) e = _ from se_add_span (derivFit F dEval) hF _ _ e]

/-! ## C234 -/

/-- The weight of the outcome of unit `i` in the average derivative. -/
noncomputable def sens (F : Fit T E J) (D : Matrix T J ℝ) (i : T) : ℝ := ∑ j, avgDeriv D j * F.tmp j i

theorem avgAcr_linear (F : Fit T E J) (D : Matrix T J ℝ) (y : T → ℝ) : avgAcr F D y = ∑ i, sens F D i * y i := by
  unfold avgAcr derivAt sens avgDeriv
  simp only [mulVec, dotProduct, Finset.sum_mul]
  rw [Finset.sum_comm, Finset.sum_div, Finset.sum_comm]
  refine Finset.sum_congr rfl fun j _ => ?_
  rw [← Finset.sum_mul, Finset.mul_sum, Finset.sum_div]
  refine Finset.sum_congr rfl fun i _ => ?_
  ring

theorem normal_eq [DecidableEq J] (F : Fit T E J) (hF : IsOls F) (y : T → ℝ) (j : J) : ∑ i, F.psi i j * F.u y i = 0 := by
  have h : F.psiᵀ *ᵥ F.u y = 0 := by
    unfold Fit.u
    rw [mulVec_sub, mulVec_mulVec, mulVec_mulVec, Matrix.mul_assoc, hF.normal, sub_self]
  exact congrFun h j

theorem inflAvg_sum [DecidableEq J] [Nonempty T] (F : Fit T E J) (hF : IsOls F) (D : Matrix T J ℝ) (Q : Matrix J J ℝ) (y : T → ℝ) :
    ∑ i, inflAvg F D Q y i = 0 := by
  unfold inflAvg
  rw [Finset.sum_add_distrib, Finset.sum_sub_distrib, Finset.sum_const, Finset.card_univ, nsmul_eq_mul]
  have h1 : (Fintype.card T : ℝ) * avgAcr F D y = ∑ i, derivAt F D y i := by
    unfold avgAcr
    rw [mul_div_cancel₀]
    exact_mod_cast Fintype.card_ne_zero
  have h2 : ∑ i, ∑ j, inflReg F Q y i j * avgDeriv D j = 0 := by
    rw [Finset.sum_comm]
    refine Finset.sum_eq_zero fun j _ => ?_
    rw [← Finset.sum_mul]
    have : ∑ i, inflReg F Q y i j = ∑ k, Q k j * ∑ i, F.psi i k * F.u y i := by
      unfold inflReg
      simp only [mul_apply, Finset.mul_sum]
      rw [Finset.sum_comm]
      exact Finset.sum_congr rfl fun k _ => Finset.sum_congr rfl fun i _ => by ring
    rw [this, Finset.sum_eq_zero fun k _ => by rw [normal_eq F hF, mul_zero], zero_mul]
  rw [h1, h2]
  ring

/-- **C234.**  The influence values of the average derivative: with the inverse of the normalised Gram matrix they add up to zero, and the
value of unit `i` is its deviation from the average derivative plus `n` times its weight in the (linear) estimator times its residual. -/
theorem C234_influence [DecidableEq J] [Nonempty T] (F : Fit T E J) (hF : IsOls F) (D : Matrix T J ℝ) (Q : Matrix J J ℝ)
    (hQs : Qᵀ = Q) (hQ : Q * ((1 / (Fintype.card T : ℝ)) • (F.psiᵀ * F.psi)) = 1) (y : T → ℝ) :
    (∀ y, avgAcr F D y = ∑ i, sens F D i * y i) ∧ ∑ i, inflAvg F D Q y i = 0 ∧
    (∀ i, inflAvg F D Q y i = (derivAt F D y i - avgAcr F D y) + Fintype.card T * sens F D i * F.u y i) ∧
    seAvg F D Q y ^ 2 = (∑ i, ((derivAt F D y i - avgAcr F D y) / Fintype.card T + sens F D i * F.u y i) ^ 2) := by
  have hn : (Fintype.card T : ℝ) ≠ 0 := by exact_mod_cast Fintype.card_ne_zero
  have hinf : ∀ i, inflAvg F D Q y i = (derivAt F D y i - avgAcr F D y) + Fintype.card T * sens F D i * F.u y i := by
    intro i
    unfold inflAvg
    congr 1
    have ht : (Fintype.card T : ℝ) • F.tmp = Q * F.psiᵀ := by
      have h1 : Q * ((1 / (Fintype.card T : ℝ)) • (F.psiᵀ * F.psi)) * F.tmp = F.tmp := by rw [hQ, Matrix.one_mul]
      rw [Matrix.mul_smul, Matrix.smul_mul, Matrix.mul_assoc, Matrix.mul_assoc, hF.normal] at h1
      rw [← h1, smul_smul, mul_one_div_cancel hn, one_smul]
    have hpq : ∀ j, (F.psi * Q) i j = Fintype.card T * F.tmp j i := by
      intro j
      have := congrFun (congrFun ht j) i
      rw [Matrix.smul_apply, smul_eq_mul] at this
      rw [this, ← transpose_apply (F.psi * Q), transpose_mul, hQs]
    unfold inflReg sens
    simp only [hpq]
    rw [Finset.mul_sum, Finset.sum_mul]
    exact Finset.sum_congr rfl fun j _ => by ring
  have hsum := inflAvg_sum F hF D Q y
  refine ⟨avgAcr_linear F D, hsum, hinf, ?_⟩
  unfold seAvg
  rw [hsum, zero_div, div_pow, Real.sq_sqrt (div_nonneg (Finset.sum_nonneg fun i _ => sq_nonneg _) (Nat.cast_nonneg _)),
    Real.sq_sqrt (Nat.cast_nonneg _), div_div, Finset.sum_div]
  refine Finset.sum_congr rfl fun i _ => ?_
  rw [hinf, sub_zero]
  field_simp

/-- **C234.**  Without uniform bands the critical value is the normal one for the requested level; with uniform bands of half width
`cv * se` it is `cv`, whatever dose is the first. -/
theorem C234_critical_value (alp : ℝ) (h se : E → ℝ) (cv : ℝ → ℝ) (z : ℝ → ℝ) (first : E) (hs : 0 < se first) :
    critVal false alp (fun a e => h e + cv a * se e) h se first z = z alp ∧
    critVal true alp (fun a e => h e + cv a * se e) h se first z = cv (5 / 100) := by
  constructor
  · simp [critVal]
  · simp only [critVal, if_true, if_pos hs]
    field_simp
    ring

/-- **C234, violated.**  The requested level is ignored by the uniform bands: for `alp = 0.01` and the 999 draws used, if the statistics of
the draws differ, only 949 of the 999 draws (95%) stay inside the reported band of half width `att_d_crit_val * att_d_se`, not the 99% asked
for.  (For the band of a given dimension, the one used when the data-driven choice fails; the data-driven band is the same for every level,
`C234_critical_value`.) -/
theorem C234_level_violated (F : Fit T E J) (y : T → ℝ) (ξ : List (T → ℝ)) (hB : ξ.length = 999) (hnd : (ξ.map (bStat F y)).Nodup)
    (hse : ∀ e, eps ≤ F.se y e) (first : E) (z : ℝ → ℝ) :
    ∃ upper : ℝ → E → ℝ, (∀ a e, 0 < a → a < 1 → (band F y ξ a e).map (·.2) = some (upper a e)) ∧
      ξ.countP (fun x => decide (∀ e, |F.boot y x e| ≤ critVal true (1 / 100) upper (F.h y) (F.se y) first z * F.se y e)) = 949 ∧
      (949 : ℝ) < (1 - 1 / 100) * ξ.length := by
  have hpos : ∀ e, 0 < F.se y e := fun e => lt_of_lt_of_le eps_pos (hse e)
  have hne : ξ ≠ [] := by intro h; rw [h] at hB; simp at hB
  have hcv : ∀ a : ℝ, ∃ c : ℝ, 0 < a → a < 1 → cvBand F y ξ a = some c := by
    intro a
    by_cases h : 0 < a ∧ a < 1
    · obtain ⟨c, hc, _⟩ := quantLower_isSome (ξ.map (bStat F y)) (1 - a) (by simpa using hne) (by linarith [h.2]) (by linarith [h.1])
      exact ⟨c, fun _ _ => hc⟩
    · exact ⟨0, fun h1 h2 => absurd ⟨h1, h2⟩ h⟩
  choose cv hcv using hcv
  refine ⟨fun a e => F.h y e + cv a * F.se y e, ?_, ?_, ?_⟩
  · intro a e h1 h2
    unfold band
    rw [hcv a h1 h2]
    simp only [Option.map_some, margin, if_pos hpos]
  · rw [(C234_critical_value (1 / 100) (F.h y) (F.se y) cv z first (hpos first)).2]
    have h := (C204_calibration F y ξ (5 / 100) (cv (5 / 100)) (hcv _ (by norm_num) (by norm_num)) hse).2 hnd
    have hm : ∀ e, margin F y (cv (5 / 100)) e = cv (5 / 100) * F.se y e := fun e => by rw [margin, if_pos hpos]
    simp only [hm] at h
    rw [h, hB]
    have : ⌊(1 - 5 / 100 : ℝ) * (((999 : ℕ) : ℝ) - 1)⌋₊ = 948 := by
      rw [Nat.floor_eq_iff (by norm_num)]
      norm_num
    rw [this]
  · rw [hB]; norm_num

/-! ## Examples -/

/-- Three treated units with doses 0, 1/2, 1 (recentred) and the linear B-spline basis `1 - d, d`; evaluation at 1/4. -/
noncomputable def exF : Fit (Fin 3) (Fin 1) (Fin 2) where
  psi := !![1, 0; 1 / 2, 1 / 2; 0, 1]
  psiEval := !![3 / 4, 1 / 4]
  tmp := !![5 / 6, 1 / 3, -1 / 6; -1 / 6, 1 / 3, 5 / 6]

theorem two3 {α : Type} (a b c : α) : vecCons a (vecCons b fun _ : Fin 1 => c) 2 = c := rfl

theorem two3' {α : Type} (a b c : α) : ![a, b, c] 2 = c := rfl

theorem exF_ols : IsOls exF := by
  constructor
  · ext i j
    fin_cases i <;> fin_cases j <;> norm_num [exF, mul_apply, Fin.sum_univ_three, two3, two3']
  · ext i j
    fin_cases i <;> fin_cases j <;> norm_num [exF, mul_apply, Fin.sum_univ_three, Fin.sum_univ_two, two3]

theorem exF_part : PartitionOfUnity exF := by
  constructor
  · intro i; fin_cases i <;> norm_num [exF, Fin.sum_univ_two]
  · intro e; fin_cases e; norm_num [exF, Fin.sum_univ_two]

/-- Two untreated units: changing one of them by 2 moves the estimate by one and leaves the standard error alone. -/
example (preT postT : Fin 3 → ℝ) : attSe exF preT postT ![0, 0] ![1, 1] 0 = attSe exF preT postT ![0, 0] ![1, 3] 0 ∧
    attD exF preT postT ![0, 0] ![1, 1] 0 - attD exF preT postT ![0, 0] ![1, 3] 0 = 1 := by
  have := C233_untreated_ignored_violated exF exF_ols.left exF_part preT postT ![0, 0] ![1, 1] ![0, 0] ![1, 3] 0
  refine ⟨this.1, this.2.trans ?_⟩
  norm_num [Fin.sum_univ_two]

/-- The dose response `2 + 3 d`, with a common change of 5. -/
example : attD exF ![1, 2, 3] ![1 + 5 + 2, 2 + 5 + 7 / 2, 3 + 5 + 5] ![4, 6] ![4 + 5, 6 + 5] 0 = 2 + 3 * (1 / 4) := by
  have := (C233_exact exF exF_ols.left exF_part !![-1, 1] !![-1, 1; -1, 1; -1, 1] ![1, 2, 3] ![4, 6] 5 ![2, 5] 0).1
  have e1 : (fun i => (![1, 2, 3] : Fin 3 → ℝ) i + 5 + (exF.psi *ᵥ ![2, 5]) i) = ![1 + 5 + 2, 2 + 5 + 7 / 2, 3 + 5 + 5] := by
    funext i
    fin_cases i <;> norm_num [exF, mulVec, dotProduct, Fin.sum_univ_two]
  have e2 : (fun j => (![4, 6] : Fin 2 → ℝ) j + 5) = ![4 + 5, 6 + 5] := by funext j; fin_cases j <;> norm_num
  rw [e1, e2] at this
  rw [this]
  norm_num [exF, mulVec, dotProduct, Fin.sum_univ_two]

/-- The inverse Gram matrix of the example. -/
noncomputable def exQ : Matrix (Fin 2) (Fin 2) ℝ := !![5 / 2, -1 / 2; -1 / 2, 5 / 2]

example (y : Fin 3 → ℝ) : ∑ i, inflAvg exF !![-1, 1; -1, 1; -1, 1] exQ y i = 0 := by
  refine (C234_influence exF exF_ols !![-1, 1; -1, 1; -1, 1] exQ ?_ ?_ y).2.1
  · ext i j; fin_cases i <;> fin_cases j <;> norm_num [exQ]
  · ext i j
    fin_cases i <;> fin_cases j <;> norm_num [exQ, exF, mul_apply, Fin.sum_univ_three, Fin.sum_univ_two, two3]

example : cckAllowed [3] [1, 2] = true ∧ cckAllowed [3, 4] [1, 2] = false := by decide

/-- 999 draws with different statistics. -/
noncomputable def exDraws : List (Fin 2 → ℝ) := (List.range 999).map fun (k : ℕ) => ![0, (k : ℝ)]

/-- The fit of a constant to the outcomes 0 and 2, and 999 draws without ties. -/
example (z : ℝ → ℝ) : ∃ upper : ℝ → Fin 1 → ℝ,
    exDraws.countP (fun x => decide (∀ e, |exFit.boot ![0, 2] x e| ≤
      critVal true (1 / 100) upper (exFit.h ![0, 2]) (exFit.se ![0, 2]) 0 z * exFit.se ![0, 2] e)) = 949 := by
  have hse : ∀ e, eps ≤ exFit.se ![0, 2] e := by
    intro e
    fin_cases e
    show eps ≤ exFit.se ![0, 2] 0
    rw [exFit_se]
    exact eps_le_half
  have hs : (0 : ℝ) < Real.sqrt (1 / 2) := Real.sqrt_pos.2 (by norm_num)
  have hst : ∀ k : ℕ, bStat exFit ![0, 2] ![0, (k : ℝ)] = (k : ℝ) / 2 / Real.sqrt (1 / 2) := by
    intro k
    have hb : exFit.boot ![0, 2] ![0, (k : ℝ)] 0 = (k : ℝ) / 2 := by
      rw [boot_eq, Fin.sum_univ_two, exFit_inf, exFit_inf]
      simp
      ring
    have hu : (Finset.univ : Finset (Fin 1)) = {0} := rfl
    simp only [bStat, supT, hu, Finset.sup'_singleton, hb, exFit_se]
    rw [max_eq_left eps_le_half, abs_of_nonneg (by positivity)]
  have hnd : (exDraws.map (bStat exFit ![0, 2])).Nodup := by
    unfold exDraws
    rw [List.map_map]
    refine List.Nodup.map (fun a b hab => ?_) List.nodup_range
    simp only [Function.comp_apply, hst] at hab
    rw [div_left_inj' hs.ne', div_left_inj' (by norm_num)] at hab
    exact_mod_cast hab
  have hl : exDraws.length = 999 := by rw [exDraws, List.length_map, List.length_range]
  obtain ⟨up, _, h, _⟩ := C234_level_violated exFit ![0, 2] exDraws hl hnd hse 0 z
  exact ⟨up, by convert h⟩

end Verif.Cont.Cck
