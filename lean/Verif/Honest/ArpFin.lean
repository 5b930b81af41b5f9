import Verif.Honest.ArpPrimal
import Verif.Honest.ArpSize

/-!
# Normal vectors indexed by the inequalities
-/

set_option linter.unusedSectionVars false
set_option linter.unusedSimpArgs false

namespace Verif.Honest

open MeasureTheory ProbabilityTheory Finset Matrix

variable {R r k : ℕ} {Ω : Type*} [MeasurableSpace Ω]

/-- The vector `y` is jointly normal with mean `mu` and covariance matrix `S`: every linear combination is normal. -/
def GaussVec (P : Measure Ω) (y : Ω → Fin R → ℝ) (mu : Fin R → ℝ) (S : Matrix (Fin R) (Fin R) ℝ) : Prop :=
  ∀ c : Fin R → ℝ, P.map (fun ω => c ⬝ᵥ y ω) = gaussianReal (c ⬝ᵥ mu) (c ⬝ᵥ (S *ᵥ c)).toNNReal

/-- A matrix as a double sequence. -/
noncomputable def extS (S : Matrix (Fin R) (Fin R) ℝ) (i j : ℕ) : ℝ := if h : i < R ∧ j < R then S ⟨i, h.1⟩ ⟨j, h.2⟩ else 0

theorem dot_fin (c : ℕ → ℝ) (v : Fin R → ℝ) : dotN R c (extV R v) = (fun j : Fin R => c j) ⬝ᵥ v := dot_extV R c v

theorem extV_fin (g : Fin R → ℝ) : (fun j : Fin R => extV R g j) = g := by
  funext j
  simp [extV]

theorem quad_fin (c : ℕ → ℝ) (S : Matrix (Fin R) (Fin R) ℝ) :
    quadForm R c (extS S) = (fun j : Fin R => c j) ⬝ᵥ (S *ᵥ fun j : Fin R => c j) := by
  unfold quadForm
  rw [Finset.sum_range]
  rw [dotProduct]
  refine sum_congr rfl fun i _ => ?_
  rw [Finset.sum_range, mulVec, dotProduct, mul_sum]
  refine sum_congr rfl fun j _ => ?_
  simp [extS]
  ring

theorem gaussVec_aemeas (P : Measure Ω) (y : Ω → Fin R → ℝ) (mu : Fin R → ℝ) (S : Matrix (Fin R) (Fin R) ℝ) (h : GaussVec P y mu S) :
    AEMeasurable y P := by
  refine aemeasurable_pi_lambda _ fun j => ?_
  have h1 := h (Pi.single j 1)
  have e : (fun ω => (Pi.single j (1 : ℝ) : Fin R → ℝ) ⬝ᵥ y ω) = fun ω => y ω j := by
    funext ω
    simp
  rw [e] at h1
  exact aemeasurable_of_map_neZero (by rw [h1]; infer_instance)

theorem dotP_meas (c : Fin R → ℝ) : Measurable fun v : Fin R → ℝ => c ⬝ᵥ v := by
  unfold dotProduct
  fun_prop

theorem gaussVec_map (P : Measure Ω) (y : Ω → Fin R → ℝ) (mu : Fin R → ℝ) (S : Matrix (Fin R) (Fin R) ℝ) (h : GaussVec P y mu S) :
    GaussVec (P.map y) (fun v => v) mu S := by
  intro c
  rw [AEMeasurable.map_map_of_aemeasurable (dotP_meas c).aemeasurable (gaussVec_aemeas P y mu S h)]
  exact h c

theorem gaussVec_coefLaw (ν : Measure (Fin R → ℝ)) (mu : Fin R → ℝ) (S : Matrix (Fin R) (Fin R) ℝ) (h : GaussVec ν (fun v => v) mu S) :
    CoefLaw R ν (extV R mu) (extS S) := by
  intro c
  have h1 := h fun j => c j
  simp only [dot_fin, quad_fin]
  exact h1

theorem resVec_fin (S : Matrix (Fin R) (Fin R) ℝ) (g v : Fin R → ℝ) : resVec R (extS S) (extV R g) v = resFin S g v := by
  funext j
  unfold resVec
  rw [← residual_dot R (extS S) (extV R g) (extV R v) j j.2]
  unfold residual resFin dirVec
  have e1 : extV R v j = v j := by simp [extV]
  have e2 : sigmaEta R (extV R g) (extS S) j = (S *ᵥ g) j := by
    unfold sigmaEta
    rw [Finset.sum_range, mulVec, dotProduct]
    exact sum_congr rfl fun t _ => by simp [extS, extV]
  have e3 : etaSigmaEta R (extV R g) (extS S) = g ⬝ᵥ (S *ᵥ g) := by
    rw [etaSigmaEta_quad, quad_fin, extV_fin]
  have e4 : dotN R (extV R g) (extV R v) = g ⬝ᵥ v := by rw [dot_fin, extV_fin]
  rw [e1, e2, e3, e4]

/-- One linear form of a normal vector: the probability of the rejection region is at most `alpha` times that of the selection event. -/
theorem core_fin (ν : Measure (Fin R → ℝ)) (mu : Fin R → ℝ) (S : Matrix (Fin R) (Fin R) ℝ) (h : GaussVec ν (fun v => v) mu S)
    (hs : ∀ i j, S i j = S j i) (hpsd : ∀ c, 0 ≤ c ⬝ᵥ (S *ᵥ c)) (g : Fin R → ℝ) (hv : 0 < g ⬝ᵥ (S *ᵥ g)) (hn : g ⬝ᵥ mu ≤ 0)
    (alpha : ℝ) (ha0 : 0 < alpha) (ha1 : alpha < 1) (I : Set (ℝ × (Fin R → ℝ))) (hI : MeasurableSet I) :
    ν {v | g ⬝ᵥ v ∈ condReject 0 (Real.sqrt (g ⬝ᵥ (S *ᵥ g))) alpha ((fun x => (x, resFin S g v)) ⁻¹' I)} ≤
      ENNReal.ofReal alpha * ν {v | (g ⬝ᵥ v, resFin S g v) ∈ I} := by
  have hq : quadForm R (extV R g) (extS S) = g ⬝ᵥ (S *ᵥ g) := by rw [quad_fin, extV_fin]
  have hd : ∀ v, dotN R (extV R g) (extV R v) = g ⬝ᵥ v := fun v => by rw [dot_fin, extV_fin]
  have := core_gen R ν (extV R mu) (extS S) (extV R g) alpha (gaussVec_coefLaw ν mu S h)
    (fun c => by rw [quad_fin]; exact hpsd _)
    (fun i hi j hj => by simp only [extS, hi, hj, and_self, dif_pos]; exact hs _ _)
    (by rw [hq]; exact hv) 0 (by rw [hd]; exact hn) ha0 ha1 I hI
  simp only [hq, hd, resVec_fin] at this
  exact this

/-- A linear form with positive variance does not hit a single value. -/
theorem tie_null (ν : Measure (Fin R → ℝ)) (mu : Fin R → ℝ) (S : Matrix (Fin R) (Fin R) ℝ) (h : GaussVec ν (fun v => v) mu S)
    (g : Fin R → ℝ) (hv : 0 < g ⬝ᵥ (S *ᵥ g)) : ν {v | g ⬝ᵥ v = 0} = 0 := by
  have e : {v : Fin R → ℝ | g ⬝ᵥ v = 0} = (fun v => g ⬝ᵥ v) ⁻¹' {0} := rfl
  rw [e, ← Measure.map_apply (dotP_meas g) (measurableSet_singleton 0), h g]
  have : NullSingletonClass (gaussianReal (g ⬝ᵥ mu) (g ⬝ᵥ (S *ᵥ g)).toNNReal) := nullSingletonClass_gaussianReal (by simpa using hv)
  exact measure_singleton 0

/-- A linear form without variance and with a mean not above zero is not positive. -/
theorem const_null (ν : Measure (Fin R → ℝ)) (mu : Fin R → ℝ) (S : Matrix (Fin R) (Fin R) ℝ) (h : GaussVec ν (fun v => v) mu S)
    (g : Fin R → ℝ) (hv : g ⬝ᵥ (S *ᵥ g) = 0) (hn : g ⬝ᵥ mu ≤ 0) : ν {v | 0 < g ⬝ᵥ v} = 0 := by
  have e : {v : Fin R → ℝ | 0 < g ⬝ᵥ v} = (fun v => g ⬝ᵥ v) ⁻¹' Set.Ioi 0 := rfl
  rw [e, ← Measure.map_apply (dotP_meas g) measurableSet_Ioi, h g, hv, Real.toNNReal_zero, gaussianReal_zero_var,
    Measure.dirac_apply' _ measurableSet_Ioi]
  simp [hn]

/-! ## Rows -/

theorem scatter_dot (rows : Fin r → Fin R) (g : Fin r → ℝ) (f : Fin R → ℝ) : scatter rows g ⬝ᵥ f = g ⬝ᵥ (f ∘ rows) := by
  unfold scatter
  simp only [dotProduct, Function.comp]
  simp only [sum_mul]
  rw [sum_comm]
  refine sum_congr rfl fun t _ => ?_
  simp [mul_assoc]

theorem scatter_mul (S : Matrix (Fin R) (Fin R) ℝ) (rows : Fin r → Fin R) (g : Fin r → ℝ) (t : Fin r) :
    (S *ᵥ scatter rows g) (rows t) = (S.submatrix rows rows *ᵥ g) t := by
  rw [mulVec, dotProduct_comm, scatter_dot, mulVec, dotProduct_comm]
  rfl

theorem scatter_quad (S : Matrix (Fin R) (Fin R) ℝ) (rows : Fin r → Fin R) (g : Fin r → ℝ) :
    scatter rows g ⬝ᵥ (S *ᵥ scatter rows g) = g ⬝ᵥ (S.submatrix rows rows *ᵥ g) := by
  rw [scatter_dot]
  congr 1
  funext t
  exact scatter_mul S rows g t

theorem scatter_sub (rows : Fin r → Fin R) (g g' : Fin r → ℝ) : scatter rows (g - g') = scatter rows g - scatter rows g' := by
  funext j
  simp only [scatter, Pi.sub_apply, sub_mul, sum_sub_distrib]

theorem dirVec_rows (S : Matrix (Fin R) (Fin R) ℝ) (rows : Fin r → Fin R) (g : Fin r → ℝ) :
    dirVec S (scatter rows g) ∘ rows = dirVec (S.submatrix rows rows) g := by
  funext t
  simp only [Function.comp, dirVec, scatter_mul, scatter_quad]

theorem resFin_rows (S : Matrix (Fin R) (Fin R) ℝ) (rows : Fin r → Fin R) (g : Fin r → ℝ) (v : Fin R → ℝ) :
    resFin S (scatter rows g) v ∘ rows = resFin (S.submatrix rows rows) g (v ∘ rows) := by
  funext t
  have := congrFun (dirVec_rows S rows g) t
  simp only [Function.comp] at this
  simp only [Function.comp, resFin, scatter_dot, this]

/-- The line through the data along which the statistic varies and the residual stays the same. -/
noncomputable def lineAt (S : Matrix (Fin R) (Fin R) ℝ) (g z : Fin R → ℝ) (x : ℝ) (j : Fin R) : ℝ := z j + x * dirVec S g j

theorem line_self (S : Matrix (Fin R) (Fin R) ℝ) (g v : Fin R → ℝ) : lineAt S g (resFin S g v) (g ⬝ᵥ v) = v := by
  funext j
  simp only [lineAt, resFin]
  ring

theorem line_dot (S : Matrix (Fin R) (Fin R) ℝ) (g z c : Fin R → ℝ) (x : ℝ) :
    c ⬝ᵥ lineAt S g z x = c ⬝ᵥ z + x * (c ⬝ᵥ dirVec S g) := by
  simp only [dotProduct, lineAt, mul_add, sum_add_distrib, mul_sum]
  congr 1
  exact sum_congr rfl fun j _ => by ring

theorem dot_dir (S : Matrix (Fin R) (Fin R) ℝ) (g : Fin R → ℝ) (hv : 0 < g ⬝ᵥ (S *ᵥ g)) : g ⬝ᵥ dirVec S g = 1 := by
  have : g ⬝ᵥ dirVec S g = g ⬝ᵥ (S *ᵥ g) / (g ⬝ᵥ (S *ᵥ g)) := by
    simp only [dotProduct, dirVec]
    rw [sum_div]
    exact sum_congr rfl fun j _ => by ring
  rw [this, div_self hv.ne']

theorem dot_res (S : Matrix (Fin R) (Fin R) ℝ) (g v : Fin R → ℝ) (hv : 0 < g ⬝ᵥ (S *ᵥ g)) : g ⬝ᵥ resFin S g v = 0 := by
  have h := line_dot S g (resFin S g v) g (g ⬝ᵥ v)
  rw [line_self, dot_dir S g hv] at h
  linarith

theorem line_rows (S : Matrix (Fin R) (Fin R) ℝ) (rows : Fin r → Fin R) (g : Fin r → ℝ) (v : Fin R → ℝ) (x : ℝ) :
    lineAt S (scatter rows g) (resFin S (scatter rows g) v) x ∘ rows =
      lineAt (S.submatrix rows rows) g (resFin (S.submatrix rows rows) g (v ∘ rows)) x := by
  funext t
  have h1 := congrFun (dirVec_rows S rows g) t
  have h2 := congrFun (resFin_rows S rows g v) t
  simp only [Function.comp] at h1 h2
  simp only [Function.comp, lineAt, h1, h2]

end Verif.Honest
