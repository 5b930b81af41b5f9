import Verif.Honest.ArpGen
import Verif.Honest.ArpGamma
import Verif.Honest.ArpSearch
import Mathlib.LinearAlgebra.Matrix.Rank

/-!
# Conditional tests with nuisance parameters: model of `didhonest/arp_nuisance.py`

`R` inequalities, of which the rows `rows` (`rows_for_arp`, distinct) enter the linear program; `k` nuisance parameters.  Numbers are
exact reals; the infinities and NaN that the code produces itself are modelled (`Bnd`, `Ext`).  `none` is a raised exception.  The
solver (`scipy.optimize.linprog`) and the numerical search for the truncation points in the degenerate case are parameters of the
model; what is assumed of them is stated in each theorem.
-/

set_option linter.unusedSectionVars false
set_option linter.unusedSimpArgs false

namespace Verif.Honest

open Finset Matrix Classical

variable {R r k : ℕ}

/-- `np.sqrt(np.diag(sigma))`, `arp_nuisance.py:480,889,981`. -/
noncomputable def sdVec (S : Matrix (Fin r) (Fin r) ℝ) (i : Fin r) : ℝ := Real.sqrt (S i i)

/-- A solution reported by the solver: `eta_star`, `delta_star` and the multipliers `lambda`, `arp_nuisance.py:910-914`. -/
structure LpSol (r k : ℕ) where
  eta : ℝ
  delta : Fin k → ℝ
  lam : Fin r → ℝ

/-- `tol_lambda`, `arp_nuisance.py:403`. -/
noncomputable def tolLambda : ℝ := 1 / 10 ^ 6

/-- `np.finfo(float).eps`, `arp_nuisance.py:431,992`. -/
noncomputable def floatEps : ℝ := 1 / 2 ^ 52

/-- `b_index`, `arp_nuisance.py:407`. -/
noncomputable def bIndex (lam : Fin r → ℝ) : Finset (Fin r) := univ.filter fun i => tolLambda < lam i

/-- `full_rank_flag`, `arp_nuisance.py:413-420`, exact rank. -/
def FullRank (X : Matrix (Fin r) (Fin k) ℝ) (B : Finset (Fin r)) : Prop :=
  B.card ≠ 0 ∧ k ≠ 0 ∧ (X.submatrix (fun i : B => i.1) id).rank = min B.card k

/-- A row of `np.column_stack([sd_vec, x_t])`, `arp_nuisance.py:491-492,982`. -/
noncomputable def wRow (S : Matrix (Fin r) (Fin r) ℝ) (X : Matrix (Fin r) (Fin k) ℝ) (i : Fin r) : Fin (k + 1) → ℝ :=
  Fin.cons (sdVec S i) (X i)

/-- `w_b`; `e` lists the rows of `b_index` in ascending order, `arp_nuisance.py:486,491`. -/
noncomputable def wB (S : Matrix (Fin r) (Fin r) ℝ) (X : Matrix (Fin r) (Fin k) ℝ) (e : Fin (k + 1) → Fin r) :
    Matrix (Fin (k + 1)) (Fin (k + 1)) ℝ :=
  fun t c => wRow S X (e t) c

/-- The row of `gamma_b = w_bc @ inv(w_b) @ s_b - s_bc` for the inequality `i`, `arp_nuisance.py:495`. -/
noncomputable def gammaB (S : Matrix (Fin r) (Fin r) ℝ) (X : Matrix (Fin r) (Fin k) ℝ) (e : Fin (k + 1) → Fin r) (i j : Fin r) : ℝ :=
  (∑ t, (wRow S X i ᵥ* (wB S X e)⁻¹) t * if e t = j then 1 else 0) - if i = j then 1 else 0

/-- `v_b = s_b.T @ inv(w_b).T @ e1`, `arp_nuisance.py:499-503`. -/
noncomputable def vB (S : Matrix (Fin r) (Fin r) ℝ) (X : Matrix (Fin r) (Fin k) ℝ) (e : Fin (k + 1) → Fin r) (j : Fin r) : ℝ :=
  ∑ t, (wB S X e)⁻¹ 0 t * if e t = j then 1 else 0

/-- `rho`, `arp_nuisance.py:510`. -/
noncomputable def rhoB (S : Matrix (Fin r) (Fin r) ℝ) (X : Matrix (Fin r) (Fin k) ℝ) (e : Fin (k + 1) → Fin r) (i : Fin r) : ℝ :=
  gammaB S X e i ⬝ᵥ (S *ᵥ vB S X e) / (vB S X e ⬝ᵥ (S *ᵥ vB S X e))

/-- `maximand_or_minimand`, `arp_nuisance.py:514-519`. -/
noncomputable def candB (S : Matrix (Fin r) (Fin r) ℝ) (X : Matrix (Fin r) (Fin k) ℝ) (e : Fin (k + 1) → Fin r) (y : Fin r → ℝ)
    (i : Fin r) : ℝ :=
  -(gammaB S X e i ⬝ᵥ y) / rhoB S X e i + vB S X e ⬝ᵥ y

/-- `vlo`, `vup`, `arp_nuisance.py:521-523`. -/
noncomputable def primalBounds (S : Matrix (Fin r) (Fin r) ℝ) (X : Matrix (Fin r) (Fin k) ℝ) (B : Finset (Fin r))
    (e : Fin (k + 1) → Fin r) (y : Fin r → ℝ) : Bnd ℝ × Bnd ℝ :=
  (accum max (((List.finRange r).filter fun i => decide (i ∉ B ∧ 0 < rhoB S X e i)).map (candB S X e y)) Bnd.infinite,
   accum min (((List.finRange r).filter fun i => decide (i ∉ B ∧ rhoB S X e i < 0)).map (candB S X e y)) Bnd.infinite)

/-- `hybrid_flag` with its entries of `hybrid_list`; `dbar` is the pair of `compute_hybrid_dbar`.  (Any other flag raises,
`arp_nuisance.py:401`.) -/
inductive NKind (R : ℕ) where
  | arp : NKind R
  | lf (kappa cv : ℝ) : NKind R
  | flci (kappa : ℝ) (vbar : Fin R → ℝ) (dbar : ℝ × ℝ) : NKind R

/-- `mod_size`, `arp_nuisance.py:380,389,399`. -/
noncomputable def NKind.size (alpha : ℝ) : NKind R → ℝ
  | NKind.arp => alpha
  | NKind.lf kappa _ => alphaTilde alpha kappa
  | NKind.flci kappa _ _ => alphaTilde alpha kappa

/-- The first stage rejects, `arp_nuisance.py:381,391`. -/
def NKind.first (eta : ℝ) (y : Fin R → ℝ) : NKind R → Prop
  | NKind.arp => False
  | NKind.lf _ cv => cv < eta
  | NKind.flci _ vbar dbar => 0 < max (vbar ⬝ᵥ y - dbar.1) (-(vbar ⬝ᵥ y) - dbar.2)

/-- `max(vlo, x)` for lower truncation points. -/
noncomputable def Bnd.maxLow : Bnd ℝ → Bnd ℝ → Bnd ℝ
  | Bnd.fin a, Bnd.fin b => Bnd.fin (max a b)
  | Bnd.fin a, _ => Bnd.fin a
  | Bnd.infinite, b => b
  | Bnd.nan, _ => Bnd.nan

/-- `min(vup, x)` for upper truncation points. -/
noncomputable def Bnd.minUp : Bnd ℝ → Bnd ℝ → Bnd ℝ
  | Bnd.fin a, Bnd.fin b => Bnd.fin (min a b)
  | Bnd.fin a, _ => Bnd.fin a
  | Bnd.infinite, b => b
  | Bnd.nan, _ => Bnd.nan

/-- `gamma_full[rows_for_arp] = gamma`, `arp_nuisance.py:450-451,529-530`. -/
noncomputable def scatter (rows : Fin r → Fin R) (g : Fin r → ℝ) (j : Fin R) : ℝ := ∑ t, g t * if rows t = j then 1 else 0

/-- `sigma_gamma = (sigma @ gamma) / (gamma' sigma gamma)`, `arp_nuisance.py:453,532`. -/
noncomputable def dirVec (S : Matrix (Fin R) (Fin R) ℝ) (g : Fin R → ℝ) (j : Fin R) : ℝ := (S *ᵥ g) j / (g ⬝ᵥ (S *ᵥ g))

/-- `s_vec = y_t - sigma_gamma * (gamma' y_t)`, `arp_nuisance.py:454,533`, and `s_t` of `_lp_dual_wrapper`, 1001. -/
noncomputable def resFin (S : Matrix (Fin R) (Fin R) ℝ) (g y : Fin R → ℝ) (j : Fin R) : ℝ := y j - dirVec S g j * (g ⬝ᵥ y)

/-- `_compute_flci_vlo_vup`, `arp_nuisance.py:1144-1157`: the rows of `vbar_mat` are `vbar` and `-vbar`. -/
noncomputable def flciBounds (vbar : Fin R → ℝ) (dbar : ℝ × ℝ) (s c : Fin R → ℝ) : Bnd ℝ × Bnd ℝ :=
  let rowsL : List (ℝ × ℝ) := [(vbar ⬝ᵥ c, dbar.1 - vbar ⬝ᵥ s), (-(vbar ⬝ᵥ c), dbar.2 - -(vbar ⬝ᵥ s))]
  (accum max ((rowsL.filter fun x => decide (x.1 < 0)).map fun x => x.2 / x.1) Bnd.infinite,
   accum min ((rowsL.filter fun x => decide (0 < x.1)).map fun x => x.2 / x.1) Bnd.infinite)

/-- The truncation points with those of the first stage, `arp_nuisance.py:446-462,525-541` (before the division). -/
noncomputable def NKind.bounds (S : Matrix (Fin R) (Fin R) ℝ) (rows : Fin r → Fin R) (y : Fin R → ℝ) (g : Fin r → ℝ) (lo up : Bnd ℝ) :
    NKind R → Bnd ℝ × Bnd ℝ
  | NKind.arp => (lo, up)
  | NKind.lf _ cv => (lo, up.minUp (Bnd.fin cv))
  | NKind.flci _ vbar dbar =>
    let v := flciBounds vbar dbar (resFin S (scatter rows g) y) (dirVec S (scatter rows g))
    (lo.maxLow v.1, up.minUp v.2)

/-- The comparison with the truncated normal critical value, `arp_nuisance.py:464-473,543-554`: `some true` = rejected. -/
noncomputable def secondStage (alpha eta sd : ℝ) (b : Bnd ℝ × Bnd ℝ) : Option Bool :=
  if eta / sd ∈ truncSet (b.1.scale sd) (b.2.scale sd) then
    (norminvp (1 - alpha) (b.1.scale sd) (b.2.scale sd) 0 1).map fun c => decide (c.max0.below (eta / sd))
  else some false

/-- `lp_conditional_test` with nuisance parameters, `arp_nuisance.py:327-336,367-561`: `some true` = rejected.  `solve` is the solver
(`none` = no success), `dual eta s_t gamma` the search of `compute_vlo_vup_dual`.  With a multiplier vector of zero variance the code
divides by zero in 510 and 543 (positive semi-definite `sigma`): `rho` is NaN, the truncation points are infinite, `maxstat` is plus
infinity (rejected), NaN or minus infinity (not rejected) for `eta > 0`, `= 0`, `< 0`. -/
noncomputable def lpTest (solve : (Fin r → ℝ) → Option (LpSol r k)) (dual : ℝ → (Fin r → ℝ) → (Fin r → ℝ) → Bnd ℝ × Bnd ℝ)
    (S : Matrix (Fin R) (Fin R) ℝ) (X : Matrix (Fin R) (Fin k) ℝ) (rows : Fin r → Fin R) (kind : NKind R) (alpha : ℝ) (y : Fin R → ℝ) :
    Option Bool :=
  let ya := y ∘ rows
  let Sa := S.submatrix rows rows
  let Xa := X.submatrix rows id
  match solve ya with
  | none => some false
  | some s =>
    if kind.first s.eta y then some true
    else if h : FullRank Xa (bIndex s.lam) ∧ (bIndex s.lam).card = k + 1 then
      let e := (bIndex s.lam).orderEmbOfFin h.2
      if (wB Sa Xa e).det = 0 then none
      else
        let v := vB Sa Xa e
        let s2 := v ⬝ᵥ (Sa *ᵥ v)
        if s2 = 0 then some (decide (0 < s.eta))
        else
          let b := primalBounds Sa Xa (bIndex s.lam) e ya
          secondStage (kind.size alpha) s.eta (Real.sqrt s2) (kind.bounds S rows y v b.1 b.2)
    else
      let s2 := s.lam ⬝ᵥ (Sa *ᵥ s.lam)
      if |s2| < floatEps then some (decide (0 < s.eta))
      else if s2 < 0 then none
      else
        let b := if s2 ≤ floatEps then (Bnd.infinite, Bnd.infinite) else dual s.eta (resFin Sa s.lam ya) s.lam
        secondStage (kind.size alpha) s.eta (Real.sqrt s2) (kind.bounds S rows y s.lam b.1 b.2)

/-- `compute_hybrid_dbar`, `numba.py:85-88,280-285`. -/
noncomputable def hybridDbar (half : ℝ) (vbar d aOne : Fin R → ℝ) (theta : ℝ) : ℝ × ℝ :=
  (half - vbar ⬝ᵥ d + (1 - vbar ⬝ᵥ aOne) * theta, half + vbar ⬝ᵥ d - (1 - vbar ⬝ᵥ aOne) * theta)

/-- `hybrid_flag` of `compute_arp_nuisance_ci`; `cv` is the result of `compute_least_favorable_cv` (168). -/
inductive CiKind (R : ℕ) where
  | arp : CiKind R
  | lf (kappa cv : ℝ) : CiKind R
  | flci (kappa half : ℝ) (vbar : Fin R → ℝ) : CiKind R

/-- The test at one grid value, `_test_theta_accepted`, `arp_nuisance.py:1344-1362`. -/
noncomputable def CiKind.at (d aOne : Fin R → ℝ) (theta : ℝ) : CiKind R → NKind R
  | CiKind.arp => NKind.arp
  | CiKind.lf kappa cv => NKind.lf kappa cv
  | CiKind.flci kappa half vbar => NKind.flci kappa vbar (hybridDbar half vbar d aOne theta)

end Verif.Honest
