import Verif.Honest.ArpLpModel
import Mathlib.Analysis.Convex.KreinMilman
import Mathlib.Tactic.NormNum

/-!
# The linear program of the test with nuisance parameters: specification, duality, optimal vertices
-/

set_option linter.unusedSectionVars false
set_option linter.unusedSimpArgs false

namespace Verif.Honest

open Finset Matrix

variable {R r k : ℕ}

/-! ## Specification -/

/-- `s` solves `min eta` subject to `y <= sd eta + X delta`, and its multipliers solve the dual program. -/
structure LpOptimal (S : Matrix (Fin r) (Fin r) ℝ) (X : Matrix (Fin r) (Fin k) ℝ) (y : Fin r → ℝ) (s : LpSol r k) : Prop where
  primal : ∀ i, y i ≤ sdVec S i * s.eta + (X *ᵥ s.delta) i
  nonneg : ∀ i, 0 ≤ s.lam i
  one : ∑ i, sdVec S i * s.lam i = 1
  nuis : ∀ j, ∑ i, X i j * s.lam i = 0
  value : s.lam ⬝ᵥ y = s.eta

/-- The solver is correct: a reported solution is optimal; without success the program is unbounded. -/
structure SolverOk (S : Matrix (Fin r) (Fin r) ℝ) (X : Matrix (Fin r) (Fin k) ℝ) (solve : (Fin r → ℝ) → Option (LpSol r k)) : Prop where
  opt : ∀ y s, solve y = some s → LpOptimal S X y s
  unb : ∀ y, solve y = none → ∀ t : ℝ, ∃ eta delta, eta < t ∧ ∀ i, y i ≤ sdVec S i * eta + (X *ᵥ delta) i

/-- The feasible set of the dual program: non-negative weights that do not involve the nuisance parameters. -/
def DualSet (S : Matrix (Fin r) (Fin r) ℝ) (X : Matrix (Fin r) (Fin k) ℝ) : Set (Fin r → ℝ) :=
  {g | (∀ i, 0 ≤ g i) ∧ ∑ i, sdVec S i * g i = 1 ∧ ∀ j, ∑ i, X i j * g i = 0}

/-- `g` attains the maximum of the dual program for the data `y`. -/
def OptAt (S : Matrix (Fin r) (Fin r) ℝ) (X : Matrix (Fin r) (Fin k) ℝ) (y g : Fin r → ℝ) : Prop :=
  g ∈ DualSet S X ∧ ∀ g' ∈ DualSet S X, g' ⬝ᵥ y ≤ g ⬝ᵥ y

/-- The vertices of the dual program. -/
def DualVertex (S : Matrix (Fin r) (Fin r) ℝ) (X : Matrix (Fin r) (Fin k) ℝ) : Set (Fin r → ℝ) := (DualSet S X).extremePoints ℝ

/-- The inequalities hold in the mean for some value of the nuisance parameters. -/
def NullLp (X : Matrix (Fin r) (Fin k) ℝ) (mu : Fin r → ℝ) : Prop := ∃ delta, ∀ i, mu i ≤ (X *ᵥ delta) i

/-! ## Duality -/

theorem dual_mulVec (S : Matrix (Fin r) (Fin r) ℝ) (X : Matrix (Fin r) (Fin k) ℝ) (g : Fin r → ℝ) (hg : g ∈ DualSet S X) (delta : Fin k → ℝ) :
    g ⬝ᵥ (X *ᵥ delta) = 0 := by
  rw [dotProduct_mulVec]
  have : g ᵥ* X = 0 := by
    funext j
    have := hg.2.2 j
    rw [vecMul, dotProduct]
    simpa [mul_comm] using this
  rw [this, zero_dotProduct]

theorem weak_duality (S : Matrix (Fin r) (Fin r) ℝ) (X : Matrix (Fin r) (Fin k) ℝ) (y g : Fin r → ℝ) (hg : g ∈ DualSet S X) (eta : ℝ)
    (delta : Fin k → ℝ) (h : ∀ i, y i ≤ sdVec S i * eta + (X *ᵥ delta) i) : g ⬝ᵥ y ≤ eta := by
  have h1 : g ⬝ᵥ y ≤ g ⬝ᵥ (fun i => sdVec S i * eta + (X *ᵥ delta) i) := by
    unfold dotProduct
    exact sum_le_sum fun i _ => mul_le_mul_of_nonneg_left (h i) (hg.1 i)
  have h2 : g ⬝ᵥ (fun i => sdVec S i * eta + (X *ᵥ delta) i) = eta := by
    have e : (fun i => sdVec S i * eta + (X *ᵥ delta) i) = (fun i => sdVec S i * eta) + X *ᵥ delta := rfl
    rw [e, dotProduct_add, dual_mulVec S X g hg, add_zero]
    have : g ⬝ᵥ (fun i => sdVec S i * eta) = (∑ i, sdVec S i * g i) * eta := by
      rw [dotProduct, sum_mul]
      exact sum_congr rfl fun i _ => by ring
    rw [this, hg.2.1, one_mul]
  linarith

theorem LpOptimal.mem {S : Matrix (Fin r) (Fin r) ℝ} {X : Matrix (Fin r) (Fin k) ℝ} {y : Fin r → ℝ} {s : LpSol r k}
    (h : LpOptimal S X y s) : s.lam ∈ DualSet S X := ⟨h.nonneg, h.one, h.nuis⟩

theorem LpOptimal.optAt {S : Matrix (Fin r) (Fin r) ℝ} {X : Matrix (Fin r) (Fin k) ℝ} {y : Fin r → ℝ} {s : LpSol r k}
    (h : LpOptimal S X y s) : OptAt S X y s.lam :=
  ⟨h.mem, fun g hg => by rw [h.value]; exact weak_duality S X y g hg s.eta s.delta h.primal⟩

theorem null_dual (S : Matrix (Fin r) (Fin r) ℝ) (X : Matrix (Fin r) (Fin k) ℝ) (mu g : Fin r → ℝ) (hg : g ∈ DualSet S X)
    (hn : NullLp X mu) : g ⬝ᵥ mu ≤ 0 := by
  obtain ⟨delta, h⟩ := hn
  have := weak_duality S X mu g hg 0 delta (fun i => by rw [mul_zero, zero_add]; exact h i)
  exact this

/-! ## Vertices -/

theorem dual_closed (S : Matrix (Fin r) (Fin r) ℝ) (X : Matrix (Fin r) (Fin k) ℝ) : IsClosed (DualSet S X) := by
  have e : DualSet S X = (⋂ i, {g : Fin r → ℝ | 0 ≤ g i}) ∩ ({g | ∑ i, sdVec S i * g i = 1} ∩ ⋂ j, {g | ∑ i, X i j * g i = 0}) := by
    ext g
    simp [DualSet]
  rw [e]
  refine IsClosed.inter (isClosed_iInter fun i => isClosed_le continuous_const (continuous_apply i)) (IsClosed.inter ?_ ?_)
  · exact isClosed_eq (by fun_prop) continuous_const
  · exact isClosed_iInter fun j => isClosed_eq (by fun_prop) continuous_const

theorem dual_convex (S : Matrix (Fin r) (Fin r) ℝ) (X : Matrix (Fin r) (Fin k) ℝ) : Convex ℝ (DualSet S X) := by
  intro a ha b hb u v hu hv huv
  refine ⟨fun i => ?_, ?_, fun j => ?_⟩
  · have := mul_nonneg hu (ha.1 i)
    have := mul_nonneg hv (hb.1 i)
    simp only [Pi.add_apply, Pi.smul_apply, smul_eq_mul]
    linarith
  · have : ∑ i, sdVec S i * (u • a + v • b) i = u * ∑ i, sdVec S i * a i + v * ∑ i, sdVec S i * b i := by
      rw [mul_sum, mul_sum, ← sum_add_distrib]
      refine sum_congr rfl fun i _ => ?_
      simp only [Pi.add_apply, Pi.smul_apply, smul_eq_mul]
      ring
    rw [this, ha.2.1, hb.2.1]
    linarith
  · have : ∑ i, X i j * (u • a + v • b) i = u * ∑ i, X i j * a i + v * ∑ i, X i j * b i := by
      rw [mul_sum, mul_sum, ← sum_add_distrib]
      refine sum_congr rfl fun i _ => ?_
      simp only [Pi.add_apply, Pi.smul_apply, smul_eq_mul]
      ring
    rw [this, ha.2.2 j, hb.2.2 j]
    ring

theorem dual_compact (S : Matrix (Fin r) (Fin r) ℝ) (X : Matrix (Fin r) (Fin k) ℝ) (hsd : ∀ i, 0 < sdVec S i) :
    IsCompact (DualSet S X) := by
  have hsub : DualSet S X ⊆ Set.pi Set.univ fun i => Set.Icc 0 (1 / sdVec S i) := by
    intro g hg i _
    refine ⟨hg.1 i, ?_⟩
    rw [le_div_iff₀ (hsd i), ← hg.2.1, mul_comm]
    exact single_le_sum (f := fun i => sdVec S i * g i) (fun j _ => mul_nonneg (hsd j).le (hg.1 j)) (mem_univ i)
  exact (isCompact_univ_pi fun i => isCompact_Icc).of_isClosed_subset (dual_closed S X) hsub

/-- A point of the dual set supported inside the support of a vertex is that vertex. -/
theorem vertex_unique (S : Matrix (Fin r) (Fin r) ℝ) (X : Matrix (Fin r) (Fin k) ℝ) (g g' : Fin r → ℝ) (hg : g ∈ DualVertex S X)
    (hg' : g' ∈ DualSet S X) (hsup : ∀ i, g i = 0 → g' i = 0) : g' = g := by
  have hgD : g ∈ DualSet S X := hg.1
  obtain ⟨ε, hε, hle⟩ : ∃ ε : ℝ, 0 < ε ∧ ∀ i, ε * (g' i - g i) ≤ g i := by
    have : ∀ i : Fin r, ∃ ε : ℝ, 0 < ε ∧ ∀ e, 0 < e → e ≤ ε → e * (g' i - g i) ≤ g i := by
      intro i
      rcases (hgD.1 i).lt_or_eq with h | h
      · refine ⟨g i / (|g' i - g i| + 1), by positivity, fun e he0 he => ?_⟩
        calc e * (g' i - g i) ≤ e * |g' i - g i| := mul_le_mul_of_nonneg_left (le_abs_self _) he0.le
          _ ≤ g i / (|g' i - g i| + 1) * |g' i - g i| := mul_le_mul_of_nonneg_right he (abs_nonneg _)
          _ ≤ g i := by
            rw [div_mul_eq_mul_div, div_le_iff₀ (by positivity)]
            exact mul_le_mul_of_nonneg_left (by linarith [abs_nonneg (g' i - g i)]) h.le
      · refine ⟨1, one_pos, fun e _ _ => ?_⟩
        rw [hsup i h.symm, ← h]
        simp
    choose f hf0 hf using this
    by_cases hr : Nonempty (Fin r)
    · refine ⟨univ.inf' univ_nonempty f, ?_, fun i => ?_⟩
      · rw [lt_inf'_iff]
        exact fun i _ => hf0 i
      · refine hf i _ ?_ (inf'_le f (mem_univ i))
        rw [lt_inf'_iff]
        exact fun i _ => hf0 i
    · exact ⟨1, one_pos, fun i => absurd ⟨i⟩ hr⟩
  have hD2 : (fun i => g i - ε * (g' i - g i)) ∈ DualSet S X := by
    refine ⟨fun i => by linarith [hle i], ?_, fun j => ?_⟩
    · have : ∑ i, sdVec S i * (g i - ε * (g' i - g i)) =
          ∑ i, sdVec S i * g i - ε * (∑ i, sdVec S i * g' i - ∑ i, sdVec S i * g i) := by
        rw [← sum_sub_distrib, mul_sum, ← sum_sub_distrib]
        exact sum_congr rfl fun i _ => by ring
      rw [this, hgD.2.1, hg'.2.1]
      ring
    · have : ∑ i, X i j * (g i - ε * (g' i - g i)) = ∑ i, X i j * g i - ε * (∑ i, X i j * g' i - ∑ i, X i j * g i) := by
        rw [← sum_sub_distrib, mul_sum, ← sum_sub_distrib]
        exact sum_congr rfl fun i _ => by ring
      rw [this, hgD.2.2 j, hg'.2.2 j]
      ring
  refine (mem_extremePoints.1 hg).2 g' hg' _ hD2 ?_ |>.1
  have hne : 1 + ε ≠ 0 := by positivity
  refine ⟨ε / (1 + ε), 1 / (1 + ε), by positivity, by positivity, by field_simp; ring, ?_⟩
  funext i
  simp only [Pi.add_apply, Pi.smul_apply, smul_eq_mul]
  field_simp
  ring

theorem vertex_finite (S : Matrix (Fin r) (Fin r) ℝ) (X : Matrix (Fin r) (Fin k) ℝ) : (DualVertex S X).Finite := by
  refine Set.Finite.of_finite_image (f := fun g : Fin r → ℝ => {i | g i = 0}) (Set.toFinite _) ?_
  intro a ha b hb hab
  refine (vertex_unique S X a b ha hb.1 fun i hi => ?_).symm
  have : i ∈ {i | a i = 0} := hi
  rw [show {i | a i = 0} = {i | b i = 0} from hab] at this
  exact this

/-- Either the multipliers are the only solution of the dual program and a vertex, or two vertices are tied. -/
theorem opt_vertex (S : Matrix (Fin r) (Fin r) ℝ) (X : Matrix (Fin r) (Fin k) ℝ) (hsd : ∀ i, 0 < sdVec S i) (y g : Fin r → ℝ)
    (hg : OptAt S X y g) :
    g ∈ DualVertex S X ∨ ∃ g1 ∈ DualVertex S X, ∃ g2 ∈ DualVertex S X, g1 ≠ g2 ∧ OptAt S X y g1 ∧ OptAt S X y g2 := by
  set F : Set (Fin r → ℝ) := {a | OptAt S X y a} with hF
  let L : (Fin r → ℝ) →L[ℝ] ℝ := ∑ i, y i • ContinuousLinearMap.proj (R := ℝ) (φ := fun _ : Fin r => ℝ) i
  have hL : ∀ a, L a = a ⬝ᵥ y := by
    intro a
    simp only [L, dotProduct]
    rw [ContinuousLinearMap.sum_apply]
    exact sum_congr rfl fun i _ => by simp [mul_comm]
  have hexp : IsExposed ℝ (DualSet S X) F := by
    intro _
    refine ⟨L, ?_⟩
    ext a
    simp only [hL]
    rfl
  have hext := hexp.isExtreme.extremePoints_subset_extremePoints
  have hcomp := hexp.isCompact (dual_compact S X hsd)
  have hconv := hexp.convex (dual_convex S X)
  have hkm := closure_convexHull_extremePoints hcomp hconv
  obtain ⟨g1, hg1⟩ := hcomp.extremePoints_nonempty ⟨g, hg⟩
  by_cases h : ∃ g2 ∈ F.extremePoints ℝ, g1 ≠ g2
  · obtain ⟨g2, hg2, hne⟩ := h
    exact Or.inr ⟨g1, hext hg1, g2, hext hg2, hne, hg1.1, hg2.1⟩
  · push Not at h
    left
    have e : F.extremePoints ℝ = {g1} := by
      ext a
      exact ⟨fun ha => (h a ha).symm, fun ha => by rw [Set.mem_singleton_iff.1 ha]; exact hg1⟩
    rw [e, convexHull_singleton, closure_singleton] at hkm
    have : g ∈ F := hg
    rw [← hkm] at this
    rw [Set.mem_singleton_iff.1 this]
    exact hext hg1

end Verif.Honest
