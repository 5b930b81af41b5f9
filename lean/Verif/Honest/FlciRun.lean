import Verif.Honest.FlciCover
import Verif.Honest.Golden

/-!
# C153: the whole of `compute_flci` / `_optimize_flci_params` (`fixed_length_ci.py:156-178,674-730`)
-/

set_option linter.unusedSectionVars false
set_option linter.unusedSimpArgs false

namespace Verif.Honest

open Finset MeasureTheory ProbabilityTheory

/-- The outcome of a computation that may not end (`running`) or may raise. -/
inductive Outcome (α : Type*)
  | running
  | error
  | done (a : α)

/-- Arguments of `_optimize_flci_params` together with the oracles: `bias h` is the point returned by `maximize_bias` at `h`
(`none` = any status other than optimal), `quant mu` is `folded_normal_quantile(1 - alpha, mu, sd=1)`. -/
structure FlciProblem where
  p : ℕ
  q : ℕ
  sigma : ℕ → ℕ → ℝ
  l : ℕ → ℝ
  M : ℝ
  numPoints : ℕ
  bias : ℝ → Option (ℕ → ℝ)
  quant : ℝ → ℝ

/-- `_compute_ci_half_length`, `fixed_length_ci.py:788-795`. -/
noncomputable def FlciProblem.halfAt (F : FlciProblem) (h : ℝ) : Option ℝ :=
  (F.bias h).map fun x => F.quant (biasValue F.p F.q F.l F.M x / h) * h

/-- `np.linspace(a, b, n)[i]`. -/
noncomputable def linspaceAt (a b : ℝ) (n i : ℕ) : ℝ := a + i * ((b - a) / ((n - 1 : ℕ) : ℝ))

open Classical in
/-- `min(..., key=...)`: the first element with the smallest half-length, `fixed_length_ci.py:710`. -/
noncomputable def minHalf : List ((ℕ → ℝ) × ℝ) → Option ((ℕ → ℝ) × ℝ)
  | [] => none
  | a :: as => some (as.foldl (fun b c => if c.2 < b.2 then c else b) a)

/-- The grid of the fallback, `fixed_length_ci.py:692-707`: `(optimal_l, ci_half_length)` for the successful points. -/
noncomputable def FlciProblem.grid (F : FlciProblem) (hVar hBias : ℝ) : List ((ℕ → ℝ) × ℝ) :=
  (List.range F.numPoints).filterMap fun i =>
    (F.bias (linspaceAt hVar hBias F.numPoints i)).map fun x =>
      (optimalVec F.p F.l x, F.quant (biasValue F.p F.q F.l F.M x / linspaceAt hVar hBias F.numPoints i) *
        linspaceAt hVar hBias F.numPoints i)

/-- `_optimize_flci_params`, `fixed_length_ci.py:677-730`: `optimal_vec` and `optimal_half_length`.  A failure of `maximize_bias` at
the final point leaves `optimal_l = None`, and `np.concatenate` raises. -/
noncomputable def FlciProblem.run (F : FlciProblem) (hVar hBias : ℝ) (fuel : ℕ) : Outcome ((ℕ → ℝ) × ℝ) :=
  match goldenSearch F.halfAt hVar hBias F.numPoints fuel with
  | none => .running
  | some none => match minHalf (F.grid hVar hBias) with
    | none => .error
    | some r => .done r
  | some (some h) => match F.bias h with
    | none => .error
    | some x => .done (optimalVec F.p F.l x, F.quant (biasValue F.p F.q F.l F.M x / h) * h)

theorem minHalf_mem (L : List ((ℕ → ℝ) × ℝ)) (r : (ℕ → ℝ) × ℝ) (h : minHalf L = some r) :
    r ∈ L ∧ ∀ s ∈ L, r.2 ≤ s.2 := by
  cases L with
  | nil => cases h
  | cons a as =>
    simp only [minHalf, Option.some.injEq] at h
    subst h
    induction as generalizing a with
    | nil => simp
    | cons b bs ih =>
      rw [List.foldl_cons]
      set d := if b.2 < a.2 then b else a with hd
      have := ih d
      have hda : d.2 ≤ a.2 ∧ d.2 ≤ b.2 := by
        rw [hd]
        split_ifs with hlt
        · exact ⟨hlt.le, le_rfl⟩
        · exact ⟨le_rfl, not_lt.1 hlt⟩
      refine ⟨?_, ?_⟩
      · rcases List.mem_cons.1 this.1 with e | e
        · rw [e, hd]
          split_ifs <;> simp
        · exact List.mem_cons_of_mem _ (List.mem_cons_of_mem _ e)
      · intro s hs
        have hdd := this.2 d List.mem_cons_self
        rcases List.mem_cons.1 hs with rfl | hs
        · exact hdd.trans hda.1
        · rcases List.mem_cons.1 hs with rfl | hs
          · exact hdd.trans hda.2
          · exact this.2 s (List.mem_cons_of_mem _ hs)

theorem linspace_range (a b : ℝ) (hab : a ≤ b) (n i : ℕ) (hi : i < n) : a ≤ linspaceAt a b n i ∧ linspaceAt a b n i ≤ b := by
  unfold linspaceAt
  rcases Nat.lt_or_ge 1 n with hn | hn
  · have hpos : (0 : ℝ) < ((n - 1 : ℕ) : ℝ) := by
      have : 0 < n - 1 := by omega
      exact_mod_cast this
    have hle : (i : ℝ) ≤ ((n - 1 : ℕ) : ℝ) := by
      have : i ≤ n - 1 := by omega
      exact_mod_cast this
    have e : (i : ℝ) * ((b - a) / ((n - 1 : ℕ) : ℝ)) = (b - a) * (i / ((n - 1 : ℕ) : ℝ)) := by ring
    have h1 : (i : ℝ) / ((n - 1 : ℕ) : ℝ) ≤ 1 := (div_le_one hpos).2 hle
    have h0 : 0 ≤ (i : ℝ) / ((n - 1 : ℕ) : ℝ) := by positivity
    rw [e]
    constructor <;> nlinarith
  · have : i = 0 := by omega
    subst this
    simp [hab]

/-- Every result comes from a solution at some `h` of the range. -/
theorem run_from (F : FlciProblem) (hVar hBias : ℝ) (hle : hVar ≤ hBias) (fuel : ℕ) (r : (ℕ → ℝ) × ℝ)
    (h : F.run hVar hBias fuel = .done r) : ∃ h x, hVar ≤ h ∧ h ≤ hBias ∧ F.bias h = some x ∧
      r = (optimalVec F.p F.l x, F.quant (biasValue F.p F.q F.l F.M x / h) * h) := by
  unfold FlciProblem.run at h
  split at h
  · cases h
  · split at h
    · cases h
    · rename_i s hs
      simp only [Outcome.done.injEq] at h
      subst h
      have hmem := (minHalf_mem _ _ hs).1
      unfold FlciProblem.grid at hmem
      rw [List.mem_filterMap] at hmem
      obtain ⟨i, hi, hm⟩ := hmem
      rw [Option.map_eq_some_iff] at hm
      obtain ⟨x, hx, rfl⟩ := hm
      have hr := linspace_range hVar hBias hle F.numPoints i (List.mem_range.1 hi)
      exact ⟨_, x, hr.1, hr.2, hx, rfl⟩
  · rename_i h0 hg
    split at h
    · cases h
    · rename_i x hx
      simp only [Outcome.done.injEq] at h
      have hr := C154_in_range _ _ _ _ _ hle _ hg
      exact ⟨h0, x, hr.1, hr.2, hx, h.symm⟩

variable {Ω : Type*} [MeasurableSpace Ω]

/-- C153: whatever way the computation ends (search or grid), an interval it returns covers the parameter with probability at
least `1 - alpha` for all effects and every violation in `Delta^SD(M)`. -/
theorem C153_run (P : Measure Ω) (F : FlciProblem) (hp : 1 ≤ F.p) (hM : 0 ≤ F.M) (alpha : ℝ)
    (hs : ∀ i < F.p, ∀ k < F.q, F.sigma i (F.p + k) = F.sigma (F.p + k) i)
    (hbias : ∀ h x, F.bias h = some x → Solves (biasSet F.p F.q F.sigma F.l h) (biasObjective F.p F.q F.l) x)
    (hquant : ∀ mu, FoldedQuantile (1 - alpha) mu 1 (F.quant mu))
    (x0 : ℕ → ℝ) (h0 : Solves (weightSet F.p F.q F.l) (varianceExpr F.p F.q F.sigma F.l) x0)
    (hpos : 0 < varianceExpr F.p F.q F.sigma F.l x0) (fuel : ℕ) (vec : ℕ → ℝ) (half : ℝ)
    (h : F.run (Real.sqrt (varianceExpr F.p F.q F.sigma F.l x0)) (Real.sqrt (minBiasVariance F.p F.q F.sigma F.l)) fuel =
      .done (vec, half)) (δ τ : ℕ → ℝ) (hδ : δ ∈ DeltaSD F.p F.q F.M) (betaHat : Ω → ℕ → ℝ)
    (hG : GaussianCoefs P (F.p + F.q) betaHat (betaOf F.p δ τ) F.sigma) :
    1 - alpha ≤ P.real {ω | thetaOf F.q F.l τ ∈ Set.Icc (flciOf F.p F.q vec (betaHat ω) half).1
      (flciOf F.p F.q vec (betaHat ω) half).2} := by
  have hrange := (C150_range F.p F.q hp F.sigma F.l x0 h0).1
  obtain ⟨h', x, h1, h2, hx, e⟩ := run_from F _ _ (Real.sqrt_le_sqrt hrange) fuel _ h
  simp only [Prod.mk.injEq] at e
  obtain ⟨rfl, rfl⟩ := e
  have hh : 0 < h' := lt_of_lt_of_le (Real.sqrt_pos.2 hpos) h1
  refine C153_coverage P F.p F.q hp betaHat F.sigma F.l x F.M h' alpha _ hM hs hh ?_ (hbias h' x hx) ⟨_, hquant _, rfl⟩ δ τ hδ hG
  have := pow_le_pow_left₀ hh.le h2 2
  rwa [Real.sq_sqrt (hpos.le.trans hrange)] at this

/-- C153: the estimator returned always carries the requested post-treatment weights and is unaffected by linear trends. -/
theorem C153_weights (F : FlciProblem) (hp : 1 ≤ F.p) (hVar hBias : ℝ) (hle : hVar ≤ hBias)
    (hbias : ∀ h x, F.bias h = some x → Solves (biasSet F.p F.q F.sigma F.l h) (biasObjective F.p F.q F.l) x)
    (fuel : ℕ) (vec : ℕ → ℝ) (half : ℝ) (h : F.run hVar hBias fuel = .done (vec, half)) :
    PostIs F.p F.q vec F.l ∧ dotN (F.p + F.q) vec (trend F.p) = 0 := by
  obtain ⟨h', x, _, _, hx, e⟩ := run_from F _ _ hle fuel _ h
  simp only [Prod.mk.injEq] at e
  obtain ⟨rfl, rfl⟩ := e
  refine ⟨optimalVec_post _ _ _ _, ?_⟩
  have h1 := C151_trend F.p F.q hp F.l x (fun _ => 0) (hbias h' x hx).1.1 1 0
  have h2 := congrArg Prod.fst h1
  simp only [flciOf, dotN, mul_zero, sum_const_zero, sub_zero, zero_add, one_mul] at h2
  exact h2

/-- C153: when the search ends with NaN, the half-length returned is the smallest over the successful grid points. -/
theorem C153_grid (F : FlciProblem) (hVar hBias : ℝ) (fuel : ℕ) (r : (ℕ → ℝ) × ℝ)
    (hnan : goldenSearch F.halfAt hVar hBias F.numPoints fuel = some none) (h : F.run hVar hBias fuel = .done r) (i : ℕ)
    (hi : i < F.numPoints) (x : ℕ → ℝ) (hx : F.bias (linspaceAt hVar hBias F.numPoints i) = some x) :
    r.2 ≤ F.quant (biasValue F.p F.q F.l F.M x / linspaceAt hVar hBias F.numPoints i) * linspaceAt hVar hBias F.numPoints i := by
  unfold FlciProblem.run at h
  rw [hnan] at h
  simp only at h
  split at h
  · cases h
  · rename_i s hs
    simp only [Outcome.done.injEq] at h
    subst h
    refine (minHalf_mem _ _ hs).2 (optimalVec F.p F.l x, _) ?_
    unfold FlciProblem.grid
    rw [List.mem_filterMap]
    exact ⟨i, List.mem_range.2 hi, by rw [hx]; rfl⟩

/-! ### Non-vacuity: one pre- and one post-treatment period -/

/-- `beta_hat = (beta_0 + Z, beta_1 + 2 Z)`; the oracles are the exact ones. -/
noncomputable def exFlci : FlciProblem where
  p := 1
  q := 1
  sigma := fun i j => (if i = 0 then 1 else 2) * (if j = 0 then 1 else 2)
  l := fun _ => 1
  M := 1 / 10
  numPoints := 100
  bias := fun h => open Classical in if 9 ≤ h ^ 2 then some (stackOf 1 (minBiasWeights 1 1 fun _ => 1)) else none
  quant := fun mu => (C152_exists (1 - 1 / 20) mu 1 (by norm_num) (by norm_num) one_pos).choose

theorem exFlci_var : minBiasVariance 1 1 exFlci.sigma (fun _ => (1 : ℝ)) = 9 := by
  simp [minBiasVariance, affineVariance, sigmaPost, minBiasWeights, weightsToL, targetSum, exFlci]
  norm_num

example : ∃ vec half, exFlci.run 3 3 1 = .done (vec, half) ∧
    (∀ h x, exFlci.bias h = some x → Solves (biasSet 1 1 exFlci.sigma exFlci.l h) (biasObjective 1 1 exFlci.l) x) ∧
    (∀ mu, FoldedQuantile (1 - 1 / 20) mu 1 (exFlci.quant mu)) ∧
    Solves (weightSet 1 1 exFlci.l) (varianceExpr 1 1 exFlci.sigma exFlci.l) (stackOf 1 (minBiasWeights 1 1 fun _ => 1)) ∧
    varianceExpr 1 1 exFlci.sigma exFlci.l (stackOf 1 (minBiasWeights 1 1 fun _ => 1)) = 9 := by
  have hmem : stackOf 1 (minBiasWeights 1 1 fun _ => (1 : ℝ)) ∈ weightSet 1 1 exFlci.l :=
    stackOf_mem 1 1 _ _ (minBias_sum 0 1 _)
  have hb : exFlci.bias 3 = some (stackOf 1 (minBiasWeights 1 1 fun _ => 1)) := by
    simp only [exFlci]
    rw [if_pos (by norm_num)]
  refine ⟨optimalVec 1 exFlci.l (stackOf 1 (minBiasWeights 1 1 fun _ => 1)),
    exFlci.quant (biasValue 1 1 exFlci.l exFlci.M (stackOf 1 (minBiasWeights 1 1 fun _ => 1)) / 3) * 3,
    ?_, ?_, ?_, ⟨hmem, ?_⟩, ?_⟩
  · unfold FlciProblem.run
    rw [C154_degenerate exFlci.halfAt 3 _ (by unfold FlciProblem.halfAt; rw [hb]; rfl) exFlci.numPoints 0]
    simp only [hb]
    rfl
  · intro h x hx
    simp only [exFlci] at hx
    split_ifs at hx with hh
    simp only [Option.some.injEq] at hx
    subst hx
    exact C150_min_bias 1 1 le_rfl _ _ h (by rw [show exFlci.l = fun _ => 1 from rfl, exFlci_var]; exact hh)
  · intro mu
    exact (C152_exists (1 - 1 / 20) mu 1 (by norm_num) (by norm_num) one_pos).choose_spec.1
  · intro y hy
    rw [C150_one_pre 1 exFlci.sigma exFlci.l y hy, C150_one_pre 1 exFlci.sigma exFlci.l _ hmem]
  · rw [C150_one_pre 1 exFlci.sigma exFlci.l _ hmem]
    exact exFlci_var

end Verif.Honest
