import Verif.Honest.ArpLpSize
import Mathlib.Tactic.FinCases

/-!
# C165–C168: the conditional test with nuisance parameters
-/

set_option linter.unusedSectionVars false
set_option linter.unusedSimpArgs false

namespace Verif.Honest

open MeasureTheory ProbabilityTheory Finset Matrix

variable {R r k : ℕ} {Ω : Type*} [MeasurableSpace Ω]

/-! ## C165: decisions that do not depend on the distribution -/

/-- C165.  If the estimates themselves satisfy the inequalities for some value of the nuisance parameters, the conditional test never
rejects, and neither does the least-favourable hybrid with a critical value `>= 0`; the hybrid with a fixed-length interval can only
reject in its first stage. -/
theorem C165_inside (solve : (Fin r → ℝ) → Option (LpSol r k)) (dual : ℝ → (Fin r → ℝ) → (Fin r → ℝ) → Bnd ℝ × Bnd ℝ)
    (S : Matrix (Fin R) (Fin R) ℝ) (X : Matrix (Fin R) (Fin k) ℝ) (rows : Fin r → Fin R) (alpha kappa cv : ℝ) (vbar : Fin R → ℝ)
    (dbar : ℝ × ℝ) (y : Fin R → ℝ) (hpsd : ∀ c : Fin R → ℝ, 0 ≤ c ⬝ᵥ (S *ᵥ c))
    (hsol : SolverOk (S.submatrix rows rows) (X.submatrix rows id) solve) (hcv : 0 ≤ cv)
    (h : ∃ delta, ∀ t, y (rows t) ≤ (X *ᵥ delta) (rows t)) :
    lpTest solve dual S X rows NKind.arp alpha y ≠ some true ∧ lpTest solve dual S X rows (NKind.lf kappa cv) alpha y ≠ some true ∧
      (lpTest solve dual S X rows (NKind.flci kappa vbar dbar) alpha y = some true → dbar.1 < vbar ⬝ᵥ y ∨ dbar.2 < -(vbar ⬝ᵥ y)) := by
  classical
  cases hs : solve (y ∘ rows) with
  | none => refine ⟨?_, ?_, ?_⟩ <;> · unfold lpTest; simp [hs]
  | some s =>
    have hlp := hsol.opt _ s hs
    have hle : s.eta ≤ 0 := by
      rw [← hlp.value]
      exact null_dual _ _ _ s.lam hlp.mem h
    refine ⟨fun h => ?_, fun h => ?_, fun h => ?_⟩
    · have := reject_positive solve dual S X rows NKind.arp alpha y hpsd s hs (fun h => h) h
      linarith
    · have := reject_positive solve dual S X rows (NKind.lf kappa cv) alpha y hpsd s hs (fun h => by
        have h' : cv < s.eta := h
        linarith) h
      linarith
    · by_contra hn
      push Not at hn
      have := reject_positive solve dual S X rows _ alpha y hpsd s hs (by
        intro hf
        have hf' : 0 < max (vbar ⬝ᵥ y - dbar.1) (-(vbar ⬝ᵥ y) - dbar.2) := hf
        rw [lt_max_iff] at hf'
        rcases hf' with h | h <;> linarith [hn.1, hn.2]) h
      linarith

/-- C165.  Without a solution of the program the test does not reject, and rightly so: then the inequalities hold for suitable nuisance
parameters whatever the means are. -/
theorem C165_unbounded (solve : (Fin r → ℝ) → Option (LpSol r k)) (dual : ℝ → (Fin r → ℝ) → (Fin r → ℝ) → Bnd ℝ × Bnd ℝ)
    (S : Matrix (Fin R) (Fin R) ℝ) (X : Matrix (Fin R) (Fin k) ℝ) (rows : Fin r → Fin R) (kind : NKind R) (alpha : ℝ) (y : Fin R → ℝ)
    (hpos : ∀ t, 0 < S (rows t) (rows t)) (hsol : SolverOk (S.submatrix rows rows) (X.submatrix rows id) solve)
    (h : solve (y ∘ rows) = none) :
    lpTest solve dual S X rows kind alpha y = some false ∧ ∀ mu : Fin R → ℝ, ∃ delta, ∀ t, mu (rows t) ≤ (X *ᵥ delta) (rows t) := by
  classical
  refine ⟨by unfold lpTest; simp [h], fun mu => ?_⟩
  have hsd : ∀ t, 0 < sdVec (S.submatrix rows rows) t := fun t => Real.sqrt_pos.2 (hpos t)
  obtain ⟨C, hC0, hC⟩ : ∃ C : ℝ, 0 ≤ C ∧ ∀ t, (mu (rows t) - y (rows t)) / sdVec (S.submatrix rows rows) t ≤ C := by
    refine ⟨∑ t, |(mu (rows t) - y (rows t)) / sdVec (S.submatrix rows rows) t|, sum_nonneg fun t _ => abs_nonneg _, fun t => ?_⟩
    exact (le_abs_self _).trans (single_le_sum (f := fun t => |(mu (rows t) - y (rows t)) / sdVec (S.submatrix rows rows) t|)
      (fun t _ => abs_nonneg _) (mem_univ t))
  obtain ⟨eta, delta, h1, h2⟩ := hsol.unb _ h (-C)
  refine ⟨delta, fun t => ?_⟩
  have a1 := hC t
  rw [div_le_iff₀ (hsd t)] at a1
  have a2 : y (rows t) ≤ sdVec (S.submatrix rows rows) t * eta + (X *ᵥ delta) (rows t) := h2 t
  have a3 : sdVec (S.submatrix rows rows) t * eta ≤ sdVec (S.submatrix rows rows) t * -C := mul_le_mul_of_nonneg_left h1.le (hsd t).le
  linarith

theorem second_total (alpha eta sd : ℝ) (b : Bnd ℝ × Bnd ℝ) : ∃ x, secondStage alpha eta sd b = some x := by
  classical
  unfold secondStage
  split_ifs with h
  · have : ∃ c, norminvp (1 - alpha) (b.1.scale sd) (b.2.scale sd) 0 1 = some c := by
      unfold norminvp
      dsimp only
      rw [if_neg (by norm_num)]
      split_ifs <;> exact ⟨_, rfl⟩
    obtain ⟨c, hc⟩ := this
    rw [hc]
    exact ⟨_, rfl⟩
  · exact ⟨_, rfl⟩

/-- C165.  With regular moments and a solver that returns basic solutions the test always returns a decision. -/
theorem C165_returns (solve : (Fin r → ℝ) → Option (LpSol r k)) (dual : ℝ → (Fin r → ℝ) → (Fin r → ℝ) → Bnd ℝ × Bnd ℝ)
    (S : Matrix (Fin R) (Fin R) ℝ) (X : Matrix (Fin R) (Fin k) ℝ) (rows : Fin r → Fin R) (kind : NKind R) (alpha : ℝ) (y : Fin R → ℝ)
    (hreg : RegularLp S X rows)
    (hbasic : ∀ u s, solve u = some s → s.lam ∈ DualVertex (S.submatrix rows rows) (X.submatrix rows id)) :
    ∃ b, lpTest solve dual S X rows kind alpha y = some b := by
  classical
  unfold lpTest
  dsimp only
  cases hs : solve (y ∘ rows) with
  | none => exact ⟨_, rfl⟩
  | some s =>
    have hver := hbasic _ s hs
    dsimp only
    split_ifs with h0 h1 h2 h3 h4 h5 h6
    · exact ⟨_, rfl⟩
    · exfalso
      refine basis_det _ _ (bIndex s.lam) h1.2 h1.1 s.lam hver.1 (fun i hi => ?_) h2
      refine (hreg.weights s.lam hver i).resolve_right fun h => hi ?_
      simp only [bIndex, Finset.mem_filter, Finset.mem_univ, true_and]
      exact h
    · exact ⟨_, rfl⟩
    · exact second_total _ _ _ _
    · exact ⟨_, rfl⟩
    · exfalso
      have := hreg.psd (scatter rows s.lam)
      rw [scatter_quad] at this
      linarith
    · exact second_total _ _ _ _
    · exact second_total _ _ _ _

/-! ## C166–C168: size -/

theorem real_le (P : Measure Ω) (s : Set Ω) (a : ℝ) (ha : 0 ≤ a) (h : P s ≤ ENNReal.ofReal a) : P.real s ≤ a :=
  ENNReal.toReal_le_of_le_ofReal ha h

theorem gaussVec_prob (ν : Measure (Fin R → ℝ)) (mu : Fin R → ℝ) (S : Matrix (Fin R) (Fin R) ℝ) (h : GaussVec ν (fun v => v) mu S) :
    IsProbabilityMeasure ν := coefLaw_prob R ν _ _ (gaussVec_coefLaw ν mu S h)

/-- From the first-stage bound to the size of the hybrid. -/
theorem hybrid_total (u : ENNReal) (alpha kappa : ℝ) (hk0 : 0 ≤ kappa) (hk : kappa < alpha) (ha1 : alpha < 1) (hu : u ≤ ENNReal.ofReal kappa) :
    u + ENNReal.ofReal (alphaTilde alpha kappa) * (1 - u) ≤ ENNReal.ofReal alpha := by
  have hk1 : 0 < 1 - kappa := by linarith
  have hat0 : 0 < alphaTilde alpha kappa := div_pos (by linarith) hk1
  have hat1 : alphaTilde alpha kappa < 1 := by rw [alphaTilde, div_lt_one hk1]; linarith
  have hfin : u ≠ ⊤ := ne_top_of_le_ne_top ENNReal.ofReal_ne_top hu
  obtain ⟨x, hx0, rfl⟩ : ∃ x : ℝ, 0 ≤ x ∧ u = ENNReal.ofReal x := ⟨u.toReal, ENNReal.toReal_nonneg, (ENNReal.ofReal_toReal hfin).symm⟩
  have hxk : x ≤ kappa := (ENNReal.ofReal_le_ofReal_iff hk0).1 hu
  rw [← ENNReal.ofReal_one, ← ENNReal.ofReal_sub _ hx0, ← ENNReal.ofReal_mul hat0.le,
    ← ENNReal.ofReal_add hx0 (mul_nonneg hat0.le (by linarith))]
  refine ENNReal.ofReal_le_ofReal ?_
  have e : (1 - alphaTilde alpha kappa) * kappa + alphaTilde alpha kappa = alpha := by
    rw [alphaTilde]
    field_simp
    ring
  nlinarith [mul_le_mul_of_nonneg_left hxk (show 0 ≤ 1 - alphaTilde alpha kappa by linarith)]

theorem alphaTilde_range (alpha kappa : ℝ) (hk : kappa < alpha) (ha1 : alpha < 1) : 0 < alphaTilde alpha kappa ∧ alphaTilde alpha kappa < 1 := by
  have hk1 : 0 < 1 - kappa := by linarith
  exact ⟨div_pos (by linarith) hk1, by rw [alphaTilde, div_lt_one hk1]; linarith⟩

/-- C166.  Size of the conditional test: if `y` is normal with a mean satisfying the inequalities for some value of the nuisance
parameters, the test rejects with probability at most `alpha`. -/
theorem C166_size (P : Measure Ω) (y : Ω → Fin R → ℝ) (mu : Fin R → ℝ) (solve : (Fin r → ℝ) → Option (LpSol r k))
    (dual : ℝ → (Fin r → ℝ) → (Fin r → ℝ) → Bnd ℝ × Bnd ℝ)
    (S : Matrix (Fin R) (Fin R) ℝ) (X : Matrix (Fin R) (Fin k) ℝ) (rows : Fin r → Fin R) (alpha : ℝ) (hy : GaussVec P y mu S)
    (hnull : ∃ delta, ∀ t, mu (rows t) ≤ (X *ᵥ delta) (rows t)) (hreg : RegularLp S X rows)
    (hsol : SolverOk (S.submatrix rows rows) (X.submatrix rows id) solve)
    (hdual : DualOk dual (S.submatrix rows rows) (X.submatrix rows id)) (ha0 : 0 < alpha) (ha1 : alpha < 1) :
    P.real {ω | lpTest solve dual S X rows NKind.arp alpha (y ω) = some true} ≤ alpha := by
  refine real_le P _ _ ha0.le ?_
  have hν := gaussVec_map P y mu S hy
  have hprob := gaussVec_prob _ mu S hν
  have key := lp_size_core (P.map y) mu solve dual S X rows NKind.arp alpha hν hnull hreg hsol hdual ∅ MeasurableSet.empty
    (fun v g _ => ⟨fun h => h.elim, fun h => h.elim⟩) ha0 ha1
  refine ((Measure.le_map_apply (gaussVec_aemeas P y mu S hy) _).trans' le_rfl).trans (key.trans ?_)
  rw [measure_empty, zero_add, Set.compl_empty, measure_univ, mul_one]
  exact le_rfl

/-- C167.  Size of the least-favourable hybrid: if moreover the value of the program for the estimation errors exceeds the critical value
of the first stage with probability at most `kappa`, the hybrid rejects with probability at most `alpha`. -/
theorem C167_size (P : Measure Ω) (y : Ω → Fin R → ℝ) (mu : Fin R → ℝ) (solve : (Fin r → ℝ) → Option (LpSol r k))
    (dual : ℝ → (Fin r → ℝ) → (Fin r → ℝ) → Bnd ℝ × Bnd ℝ)
    (S : Matrix (Fin R) (Fin R) ℝ) (X : Matrix (Fin R) (Fin k) ℝ) (rows : Fin r → Fin R) (alpha kappa cv : ℝ) (hy : GaussVec P y mu S)
    (hnull : ∃ delta, ∀ t, mu (rows t) ≤ (X *ᵥ delta) (rows t)) (hreg : RegularLp S X rows)
    (hsol : SolverOk (S.submatrix rows rows) (X.submatrix rows id) solve)
    (hdual : DualOk dual (S.submatrix rows rows) (X.submatrix rows id)) (hk0 : 0 ≤ kappa) (hk : kappa < alpha) (ha1 : alpha < 1)
    (hlf : P {ω | ∃ g ∈ DualSet (S.submatrix rows rows) (X.submatrix rows id), cv < ∑ t, g t * (y ω (rows t) - mu (rows t))} ≤
      ENNReal.ofReal kappa) :
    P.real {ω | lpTest solve dual S X rows (NKind.lf kappa cv) alpha (y ω) = some true} ≤ alpha := by
  refine real_le P _ _ (by linarith) ?_
  have hν := gaussVec_map P y mu S hy
  have hprob := gaussVec_prob _ mu S hν
  have hae := gaussVec_aemeas P y mu S hy
  obtain ⟨hat0, hat1⟩ := alphaTilde_range alpha kappa hk ha1
  set U : Set (Fin R → ℝ) := {v | ∃ g ∈ DualSet (S.submatrix rows rows) (X.submatrix rows id), cv < g ⬝ᵥ (v ∘ rows)} with hU
  have hUm : MeasurableSet U := by
    have e : U = ⋃ g ∈ DualSet (S.submatrix rows rows) (X.submatrix rows id), {v : Fin R → ℝ | cv < g ⬝ᵥ (v ∘ rows)} := by
      ext v
      simp [hU]
    rw [e]
    refine IsOpen.measurableSet (isOpen_biUnion fun g _ => isOpen_lt continuous_const ?_)
    unfold dotProduct
    simp only [Function.comp]
    fun_prop
  have key := lp_size_core (P.map y) mu solve dual S X rows (NKind.lf kappa cv) alpha hν hnull hreg hsol hdual U hUm
    (fun v g hg => ⟨fun ⟨g', hg', h⟩ => lt_of_lt_of_le h (hg.2 g' hg'), fun h => ⟨g, hg.1, h⟩⟩) hat0 hat1
  refine (Measure.le_map_apply hae _).trans (key.trans ?_)
  rw [prob_compl_eq_one_sub hUm]
  refine hybrid_total _ alpha kappa hk0 hk ha1 ?_
  rw [Measure.map_apply_of_aemeasurable hae hUm]
  refine (measure_mono ?_).trans hlf
  rintro ω ⟨g, hg, h⟩
  refine ⟨g, hg, ?_⟩
  have h1 := null_dual _ _ (mu ∘ rows) g hg hnull
  have e : ∑ t, g t * (y ω (rows t) - mu (rows t)) = g ⬝ᵥ (y ω ∘ rows) - g ⬝ᵥ (mu ∘ rows) := by
    simp only [dotProduct, ← sum_sub_distrib, Function.comp]
    exact sum_congr rfl fun t _ => by ring
  rw [e]
  linarith

/-- C168.  Size of the hybrid with a fixed-length interval: if the first stage rejects with probability at most `kappa`, the hybrid
rejects with probability at most `alpha`. -/
theorem C168_size (P : Measure Ω) (y : Ω → Fin R → ℝ) (mu : Fin R → ℝ) (solve : (Fin r → ℝ) → Option (LpSol r k))
    (dual : ℝ → (Fin r → ℝ) → (Fin r → ℝ) → Bnd ℝ × Bnd ℝ)
    (S : Matrix (Fin R) (Fin R) ℝ) (X : Matrix (Fin R) (Fin k) ℝ) (rows : Fin r → Fin R) (alpha kappa : ℝ) (vbar : Fin R → ℝ)
    (dbar : ℝ × ℝ) (hy : GaussVec P y mu S)
    (hnull : ∃ delta, ∀ t, mu (rows t) ≤ (X *ᵥ delta) (rows t)) (hreg : RegularLp S X rows)
    (hsol : SolverOk (S.submatrix rows rows) (X.submatrix rows id) solve)
    (hdual : DualOk dual (S.submatrix rows rows) (X.submatrix rows id)) (hk0 : 0 ≤ kappa) (hk : kappa < alpha) (ha1 : alpha < 1)
    (hfl : P {ω | dbar.1 < vbar ⬝ᵥ y ω ∨ dbar.2 < -(vbar ⬝ᵥ y ω)} ≤ ENNReal.ofReal kappa) :
    P.real {ω | lpTest solve dual S X rows (NKind.flci kappa vbar dbar) alpha (y ω) = some true} ≤ alpha := by
  refine real_le P _ _ (by linarith) ?_
  have hν := gaussVec_map P y mu S hy
  have hprob := gaussVec_prob _ mu S hν
  have hae := gaussVec_aemeas P y mu S hy
  obtain ⟨hat0, hat1⟩ := alphaTilde_range alpha kappa hk ha1
  set U : Set (Fin R → ℝ) := {v | dbar.1 < vbar ⬝ᵥ v ∨ dbar.2 < -(vbar ⬝ᵥ v)} with hU
  have hUm : MeasurableSet U := by
    have a1 : MeasurableSet {v : Fin R → ℝ | dbar.1 < vbar ⬝ᵥ v} := measurableSet_lt measurable_const (dotP_meas vbar)
    have a2 : MeasurableSet {v : Fin R → ℝ | dbar.2 < -(vbar ⬝ᵥ v)} := measurableSet_lt measurable_const (dotP_meas vbar).neg
    exact a1.union a2
  have key := lp_size_core (P.map y) mu solve dual S X rows (NKind.flci kappa vbar dbar) alpha hν hnull hreg hsol hdual U hUm
    (fun v g _ => by
      show (dbar.1 < vbar ⬝ᵥ v ∨ dbar.2 < -(vbar ⬝ᵥ v)) ↔ 0 < max (vbar ⬝ᵥ v - dbar.1) (-(vbar ⬝ᵥ v) - dbar.2)
      rw [lt_max_iff, sub_pos, sub_pos]) hat0 hat1
  refine (Measure.le_map_apply hae _).trans (key.trans ?_)
  rw [prob_compl_eq_one_sub hUm]
  refine hybrid_total _ alpha kappa hk0 hk ha1 ?_
  rw [Measure.map_apply_of_aemeasurable hae hUm]
  exact hfl

/-! ## A concrete case: three inequalities, one nuisance parameter -/

/-- The coefficients of the nuisance parameter. -/
def x3 : Matrix (Fin 3) (Fin 1) ℝ := ![![1], ![-1], ![-1]]

theorem vec3_two (a b c : ℝ) : (![a, b, c] : Fin 3 → ℝ) 2 = c := rfl

/-- A correct solver for this case. -/
noncomputable def solve3 (y : Fin 3 → ℝ) : Option (LpSol 3 1) :=
  open Classical in
  some { eta := (y 0 + max (y 1) (y 2)) / 2
         delta := fun _ => (y 0 - max (y 1) (y 2)) / 2
         lam := if y 2 ≤ y 1 then ![1 / 2, 1 / 2, 0] else ![1 / 2, 0, 1 / 2] }

theorem dual3 (g : Fin 3 → ℝ) : g ∈ DualSet (1 : Matrix (Fin 3) (Fin 3) ℝ) x3 ↔ (∀ i, 0 ≤ g i) ∧ g 0 = 1 / 2 ∧ g 1 + g 2 = 1 / 2 := by
  have hsd : ∀ i, sdVec (1 : Matrix (Fin 3) (Fin 3) ℝ) i = 1 := fun i => by simp [sdVec]
  unfold DualSet
  simp only [Set.mem_ofPred_eq, hsd, one_mul, Fin.sum_univ_three, Fin.forall_fin_one]
  simp only [x3, Matrix.cons_val', Matrix.cons_val_zero, Matrix.cons_val_one, Matrix.cons_val_fin_one, Matrix.cons_val]
  constructor
  · rintro ⟨h1, h2, h3⟩
    exact ⟨h1, by linarith, by linarith⟩
  · rintro ⟨h1, h2, h3⟩
    exact ⟨h1, by linarith, by linarith⟩

theorem vert3 (g : Fin 3 → ℝ) (hg : g ∈ DualVertex (1 : Matrix (Fin 3) (Fin 3) ℝ) x3) : g = ![1 / 2, 1 / 2, 0] ∨ g = ![1 / 2, 0, 1 / 2] := by
  have hD := (dual3 g).1 hg.1
  by_cases h1 : g 1 = 0
  · right
    funext i
    fin_cases i
    · exact hD.2.1
    · exact h1
    · have := hD.2.2
      rw [h1, zero_add] at this
      exact this
  · left
    have h0 : (![1 / 2, 1 / 2, 0] : Fin 3 → ℝ) ∈ DualSet (1 : Matrix (Fin 3) (Fin 3) ℝ) x3 := by
      rw [dual3]
      refine ⟨fun i => by fin_cases i <;> norm_num, by norm_num, ?_⟩
      norm_num [vec3_two]
    refine (vertex_unique _ x3 g _ hg h0 fun i hi => ?_).symm
    fin_cases i
    · exact absurd (hi.symm.trans hD.2.1) (by norm_num)
    · exact absurd hi h1
    · rfl

theorem vert3_mem : (![1 / 2, 1 / 2, 0] : Fin 3 → ℝ) ∈ DualVertex (1 : Matrix (Fin 3) (Fin 3) ℝ) x3 ∧
    (![1 / 2, 0, 1 / 2] : Fin 3 → ℝ) ∈ DualVertex (1 : Matrix (Fin 3) (Fin 3) ℝ) x3 := by
  have key : ∀ g ∈ DualSet (1 : Matrix (Fin 3) (Fin 3) ℝ) x3, (g 1 = 0 ∨ g 2 = 0) → g ∈ DualVertex (1 : Matrix (Fin 3) (Fin 3) ℝ) x3 := by
    intro g hg h0
    unfold DualVertex
    rw [mem_extremePoints]
    refine ⟨hg, fun a ha b hb hab => ?_⟩
    rw [dual3] at hg ha hb
    obtain ⟨u, v, hu, hv, huv, e⟩ := hab
    have e1 : u * a 1 + v * b 1 = g 1 := congrFun e 1
    have e2 : u * a 2 + v * b 2 = g 2 := congrFun e 2
    have hz : ∀ i, u * a i + v * b i = 0 → a i = 0 ∧ b i = 0 := by
      intro i hi
      have h1 := mul_nonneg hu.le (ha.1 i)
      have h2 := mul_nonneg hv.le (hb.1 i)
      exact ⟨(mul_eq_zero.1 (by linarith : u * a i = 0)).resolve_left hu.ne', (mul_eq_zero.1 (by linarith : v * b i = 0)).resolve_left hv.ne'⟩
    rcases h0 with h0 | h0
    · obtain ⟨a1, b1⟩ := hz 1 (e1.trans h0)
      refine ⟨?_, ?_⟩ <;> funext i <;> fin_cases i
      · exact ha.2.1.trans hg.2.1.symm
      · exact a1.trans h0.symm
      · have := ha.2.2; have := hg.2.2; show a 2 = g 2; linarith
      · exact hb.2.1.trans hg.2.1.symm
      · exact b1.trans h0.symm
      · have := hb.2.2; have := hg.2.2; show b 2 = g 2; linarith
    · obtain ⟨a1, b1⟩ := hz 2 (e2.trans h0)
      refine ⟨?_, ?_⟩ <;> funext i <;> fin_cases i
      · exact ha.2.1.trans hg.2.1.symm
      · have := ha.2.2; have := hg.2.2; show a 1 = g 1; linarith
      · exact a1.trans h0.symm
      · exact hb.2.1.trans hg.2.1.symm
      · have := hb.2.2; have := hg.2.2; show b 1 = g 1; linarith
      · exact b1.trans h0.symm
  constructor
  · refine key _ ?_ (Or.inr rfl)
    rw [dual3]
    exact ⟨fun i => by fin_cases i <;> norm_num, by norm_num, by norm_num [vec3_two]⟩
  · refine key _ ?_ (Or.inl rfl)
    rw [dual3]
    exact ⟨fun i => by fin_cases i <;> norm_num, by norm_num, by norm_num [vec3_two]⟩

theorem ones3_ne : (![1 / 2, 1 / 2, 0] : Fin 3 → ℝ) ≠ ![1 / 2, 0, 1 / 2] := by
  intro h
  have := congrFun h 1
  norm_num at this

theorem regular3 : RegularLp (1 : Matrix (Fin 3) (Fin 3) ℝ) x3 id where
  symm i j := by simp [Matrix.one_apply, eq_comm]
  psd c := by
    rw [one_mulVec]
    exact sum_nonneg fun i _ => mul_self_nonneg _
  pos t := by simp
  weights g hg t := by
    rw [Matrix.submatrix_id_id, Matrix.submatrix_id_id] at hg
    rcases vert3 g hg with rfl | rfl <;> fin_cases t <;> norm_num
  var g hg := by
    right
    rw [Matrix.submatrix_id_id, Matrix.submatrix_id_id] at hg
    rw [Matrix.submatrix_id_id, one_mulVec, dotProduct, Fin.sum_univ_three]
    rcases vert3 g hg with rfl | rfl <;> norm_num [vec3_two]
  sep g hg g' hg' hne _ _ := by
    rw [Matrix.submatrix_id_id, Matrix.submatrix_id_id] at hg hg'
    rw [Matrix.submatrix_id_id, one_mulVec, dotProduct, Fin.sum_univ_three]
    rcases vert3 g hg with rfl | rfl <;> rcases vert3 g' hg' with rfl | rfl
    · exact absurd rfl hne
    · norm_num [vec3_two]
    · norm_num [vec3_two]
    · exact absurd rfl hne

theorem solver3 : SolverOk (1 : Matrix (Fin 3) (Fin 3) ℝ) x3 solve3 where
  opt y s h := by
    have hsd : ∀ i, sdVec (1 : Matrix (Fin 3) (Fin 3) ℝ) i = 1 := fun i => by simp [sdVec]
    simp only [solve3, Option.some.injEq] at h
    have hmem : s.lam ∈ DualSet (1 : Matrix (Fin 3) (Fin 3) ℝ) x3 := by
      rw [dual3, ← h]
      dsimp only
      split_ifs
      · exact ⟨fun i => by fin_cases i <;> norm_num, by norm_num, by norm_num [vec3_two]⟩
      · exact ⟨fun i => by fin_cases i <;> norm_num, by norm_num, by norm_num [vec3_two]⟩
    refine ⟨fun i => ?_, hmem.1, hmem.2.1, hmem.2.2, ?_⟩
    · rw [hsd, one_mul, ← h]
      have hX : ∀ (c : ℝ), (x3 *ᵥ fun _ => c) i = x3 i 0 * c := by
        intro c
        simp [mulVec, dotProduct]
      rw [hX]
      have m1 := le_max_left (y 1) (y 2)
      have m2 := le_max_right (y 1) (y 2)
      fin_cases i
      · show y 0 ≤ (y 0 + max (y 1) (y 2)) / 2 + 1 * ((y 0 - max (y 1) (y 2)) / 2)
        linarith
      · show y 1 ≤ (y 0 + max (y 1) (y 2)) / 2 + -1 * ((y 0 - max (y 1) (y 2)) / 2)
        linarith
      · show y 2 ≤ (y 0 + max (y 1) (y 2)) / 2 + -1 * ((y 0 - max (y 1) (y 2)) / 2)
        linarith
    · rw [← h, dotProduct, Fin.sum_univ_three]
      dsimp only
      split_ifs with hc
      · rw [max_eq_left hc]
        norm_num [vec3_two]
        ring
      · rw [max_eq_right (not_le.1 hc).le]
        norm_num [vec3_two]
        ring
  unb y h := by simp [solve3] at h

theorem full3 (B : Finset (Fin 3)) (hB : B.card = 2) : FullRank x3 B := by
  refine ⟨by omega, by norm_num, ?_⟩
  rw [hB]
  obtain ⟨i, hi⟩ : B.Nonempty := Finset.card_pos.1 (by omega)
  have hli : LinearIndependent ℝ (x3.submatrix (fun i : B => i.1) id).col := by
    rw [linearIndependent_unique_iff]
    intro h0
    have := congrFun h0 ⟨i, hi⟩
    have h1 : x3 i 0 = 0 := this
    fin_cases i <;> norm_num [x3] at h1
  rw [linearIndependent_iff_card_eq_finrank_span, Fintype.card_fin] at hli
  rw [Matrix.rank_eq_finrank_span_cols]
  exact hli.symm

theorem dual3_ok (dual : ℝ → (Fin 3 → ℝ) → (Fin 3 → ℝ) → Bnd ℝ × Bnd ℝ) : DualOk dual (1 : Matrix (Fin 3) (Fin 3) ℝ) x3 := by
  intro y g hg _ _ hnot
  exfalso
  have hcard : (univ.filter fun i => 1 / 10 ^ 6 < g i).card = 2 := by
    rcases vert3 g hg with rfl | rfl
    · have : (univ.filter fun i => 1 / 10 ^ 6 < (![1 / 2, 1 / 2, 0] : Fin 3 → ℝ) i) = {0, 1} := by
        ext i
        fin_cases i <;> norm_num [vec3_two]
      rw [this]
      rfl
    · have : (univ.filter fun i => 1 / 10 ^ 6 < (![1 / 2, 0, 1 / 2] : Fin 3 → ℝ) i) = {0, 2} := by
        ext i
        fin_cases i <;> norm_num [vec3_two] <;> decide
      rw [this]
      rfl
  exact hnot ⟨full3 _ hcard, hcard⟩

/-- Independent normal data with mean `mu`. -/
theorem gauss3 (mu : Fin 3 → ℝ) : GaussVec (stdNormals 3) (fun z i => mu i + z i) mu (1 : Matrix (Fin 3) (Fin 3) ℝ) := by
  intro c
  have h := lin_law 3 (c ⬝ᵥ mu) c
  have e : (fun z : Fin 3 → ℝ => c ⬝ᵥ fun i => mu i + z i) = fun z => c ⬝ᵥ mu + ∑ r, c r * z r := by
    funext z
    simp only [dotProduct, mul_add, sum_add_distrib]
  have e2 : c ⬝ᵥ ((1 : Matrix (Fin 3) (Fin 3) ℝ) *ᵥ c) = ∑ r, c r ^ 2 := by
    rw [one_mulVec, dotProduct]
    exact sum_congr rfl fun i _ => by ring
  rw [e, e2]
  exact h

/-- The means `(1, -1, -2)` satisfy the inequalities with the nuisance parameter `1`, two of them with equality: the conditional test
rejects with probability at most 5%. -/
example (dual : ℝ → (Fin 3 → ℝ) → (Fin 3 → ℝ) → Bnd ℝ × Bnd ℝ) :
    (stdNormals 3).real {z | lpTest solve3 dual (1 : Matrix (Fin 3) (Fin 3) ℝ) x3 id NKind.arp (1 / 20)
      (fun i => (![1, -1, -2] : Fin 3 → ℝ) i + z i) = some true} ≤ 1 / 20 := by
  refine C166_size (stdNormals 3) _ ![1, -1, -2] solve3 dual 1 x3 id (1 / 20) (gauss3 _) ⟨fun _ => 1, fun t => ?_⟩ regular3 ?_ ?_
    (by norm_num) (by norm_num)
  · fin_cases t <;> simp [x3, mulVec, dotProduct, vec3_two]
  · rw [Matrix.submatrix_id_id, Matrix.submatrix_id_id]; exact solver3
  · rw [Matrix.submatrix_id_id, Matrix.submatrix_id_id]; exact dual3_ok dual

/-- The same case with the least-favourable hybrid, first-stage critical value 20. -/
example (dual : ℝ → (Fin 3 → ℝ) → (Fin 3 → ℝ) → Bnd ℝ × Bnd ℝ) :
    (stdNormals 3).real {z | lpTest solve3 dual (1 : Matrix (Fin 3) (Fin 3) ℝ) x3 id (NKind.lf (1 / 50) 20) (1 / 20)
      (fun i => (![1, -1, -2] : Fin 3 → ℝ) i + z i) = some true} ≤ 1 / 20 := by
  refine C167_size (stdNormals 3) _ ![1, -1, -2] solve3 dual 1 x3 id (1 / 20) (1 / 50) 20 (gauss3 _) ⟨fun _ => 1, fun t => ?_⟩ regular3 ?_ ?_
    (by norm_num) (by norm_num) (by norm_num) ?_
  · fin_cases t <;> simp [x3, mulVec, dotProduct, vec3_two]
  · rw [Matrix.submatrix_id_id, Matrix.submatrix_id_id]; exact solver3
  · rw [Matrix.submatrix_id_id, Matrix.submatrix_id_id]; exact dual3_ok dual
  · have hsub : {z : Fin 3 → ℝ | ∃ g ∈ DualSet ((1 : Matrix (Fin 3) (Fin 3) ℝ).submatrix id id) (x3.submatrix id id),
        20 < ∑ t, g t * ((![1, -1, -2] : Fin 3 → ℝ) (id t) + z (id t) - (![1, -1, -2] : Fin 3 → ℝ) (id t))} ⊆
        {z | 20 ≤ |z 0|} ∪ ({z | 20 ≤ |z 1|} ∪ {z | 20 ≤ |z 2|}) := by
      rintro z ⟨g, hg, hz⟩
      rw [Matrix.submatrix_id_id, Matrix.submatrix_id_id, dual3] at hg
      simp only [id, add_sub_cancel_left, Fin.sum_univ_three] at hz
      by_contra hn
      simp only [Set.mem_union, Set.mem_ofPred_eq, not_or, not_le] at hn
      have a0 := (abs_lt.1 hn.1).2
      have a1 := (abs_lt.1 hn.2.1).2
      have a2 := (abs_lt.1 hn.2.2).2
      nlinarith [mul_le_mul_of_nonneg_left a0.le (hg.1 0), mul_le_mul_of_nonneg_left a1.le (hg.1 1),
        mul_le_mul_of_nonneg_left a2.le (hg.1 2), hg.2.1, hg.2.2]
    refine (measure_mono hsub).trans ((measure_union_le _ _).trans ((add_le_add le_rfl (measure_union_le _ _)).trans ?_))
    refine le_trans (add_le_add (coord_tail 3 0 20 (by norm_num)) (add_le_add (coord_tail 3 1 20 (by norm_num))
      (coord_tail 3 2 20 (by norm_num)))) ?_
    rw [← ENNReal.ofReal_add (by norm_num) (by norm_num), ← ENNReal.ofReal_add (by norm_num) (by norm_num)]
    exact ENNReal.ofReal_le_ofReal (by norm_num)

/-- The same case with a fixed-length interval for the first mean in the first stage. -/
example (dual : ℝ → (Fin 3 → ℝ) → (Fin 3 → ℝ) → Bnd ℝ × Bnd ℝ) :
    (stdNormals 3).real {z | lpTest solve3 dual (1 : Matrix (Fin 3) (Fin 3) ℝ) x3 id (NKind.flci (1 / 50) ![1, 0, 0] (21, 21)) (1 / 20)
      (fun i => (![1, -1, -2] : Fin 3 → ℝ) i + z i) = some true} ≤ 1 / 20 := by
  refine C168_size (stdNormals 3) _ ![1, -1, -2] solve3 dual 1 x3 id (1 / 20) (1 / 50) ![1, 0, 0] (21, 21) (gauss3 _)
    ⟨fun _ => 1, fun t => ?_⟩ regular3 ?_ ?_ (by norm_num) (by norm_num) (by norm_num) ?_
  · fin_cases t <;> simp [x3, mulVec, dotProduct, vec3_two]
  · rw [Matrix.submatrix_id_id, Matrix.submatrix_id_id]; exact solver3
  · rw [Matrix.submatrix_id_id, Matrix.submatrix_id_id]; exact dual3_ok dual
  · have hsub : {z : Fin 3 → ℝ | (21, 21).1 < (![1, 0, 0] : Fin 3 → ℝ) ⬝ᵥ (fun i => (![1, -1, -2] : Fin 3 → ℝ) i + z i) ∨
        (21, 21).2 < -((![1, 0, 0] : Fin 3 → ℝ) ⬝ᵥ fun i => (![1, -1, -2] : Fin 3 → ℝ) i + z i)} ⊆ {z | (20 : ℝ) ≤ |z 0|} := by
      intro z hz
      simp only [dotProduct, Fin.sum_univ_three, Matrix.cons_val_zero, Matrix.cons_val_one, vec3_two, zero_mul, add_zero, one_mul,
        Set.mem_ofPred_eq] at hz
      show 20 ≤ |z 0|
      rw [le_abs]
      rcases hz with h | h
      · left; linarith
      · right; linarith
    refine (measure_mono hsub).trans ((coord_tail 3 0 20 (by norm_num)).trans (ENNReal.ofReal_le_ofReal (by norm_num)))

/-- Data inside the plug-in set and data outside of it for the facts of C165. -/
example (dual : ℝ → (Fin 3 → ℝ) → (Fin 3 → ℝ) → Bnd ℝ × Bnd ℝ) :
    lpTest solve3 dual (1 : Matrix (Fin 3) (Fin 3) ℝ) x3 id NKind.arp (1 / 20) ![1, -1, -2] ≠ some true ∧
    (∃ b, lpTest solve3 dual (1 : Matrix (Fin 3) (Fin 3) ℝ) x3 id NKind.arp (1 / 20) ![9, 9, 7] = some b) := by
  refine ⟨(C165_inside solve3 dual 1 x3 id (1 / 20) 0 0 0 (0, 0) ![1, -1, -2] regular3.psd
    (by rw [Matrix.submatrix_id_id, Matrix.submatrix_id_id]; exact solver3) le_rfl ⟨fun _ => 1, fun t => ?_⟩).1,
    C165_returns solve3 dual 1 x3 id NKind.arp (1 / 20) _ regular3 fun u s h => ?_⟩
  · fin_cases t <;> simp [x3, mulVec, dotProduct, vec3_two]
  · rw [Matrix.submatrix_id_id, Matrix.submatrix_id_id]
    simp only [solve3, Option.some.injEq] at h
    rw [← h]
    dsimp only
    split_ifs
    · exact vert3_mem.1
    · exact vert3_mem.2

end Verif.Honest
