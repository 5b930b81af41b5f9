import Verif.DR.Jackknife
import Mathlib.Analysis.SpecialFunctions.Log.Basic

set_option linter.unusedSectionVars false

/-!
# Calibrated propensity scores: model of `moderndid/drdid/propensity/pscore_ipt.py`

The two objective functions with their analytic gradients and Hessians, over the reals.  The optimisers
(`scipy.optimize.minimize`) are not modelled: theorems speak about coefficient vectors at which the gradient handed to
the optimiser vanishes.  The weighted quantile and the quantile constraints are modelled on lists.
-/

namespace Verif.DR.Tilt

open Verif.DR

variable {ι κ : Type*} [Fintype ι] [Fintype κ]

/-- `np.clip(v, -500, 500)`, `pscore_ipt.py:203, 249`. -/
noncomputable def clip (v : ℝ) : ℝ := max (-500) (min v 500)

/-- Value of `_loss_ps_cal`, `pscore_ipt.py:202-206`. -/
noncomputable def calValue (d : ι → Bool) (x : ι → κ → ℝ) (iw : ι → ℝ) (γ : κ → ℝ) : ℝ :=
  -mean (fun i => (if d i then fitted x γ i else -Real.exp (clip (fitted x γ i))) * iw i)

/-- Gradient of `_loss_ps_cal`, `pscore_ipt.py:208-209`. -/
noncomputable def calGrad (d : ι → Bool) (x : ι → κ → ℝ) (iw : ι → ℝ) (γ : κ → ℝ) (k : κ) : ℝ :=
  -mean (fun i => (if d i then 1 else -Real.exp (clip (fitted x γ i))) * iw i * x i k)

/-- Hessian of `_loss_ps_cal`, `pscore_ipt.py:211-213`. -/
noncomputable def calHess (d : ι → Bool) (x : ι → κ → ℝ) (iw : ι → ℝ) (γ : κ → ℝ) (k l : κ) : ℝ :=
  -(∑ i, x i k * (x i l * ((if d i then 0 else -Real.exp (clip (fitted x γ i))) * iw i))) / (Fintype.card ι : ℝ)

/-- `log_n_minus_1`, also `v_star`, `pscore_ipt.py:242, 246`. -/
noncomputable def vStar (n : ℝ) : ℝ := Real.log (n - 1)

/-- `cn`, `pscore_ipt.py:243`. -/
noncomputable def cn (n : ℝ) : ℝ := -(n - 1)

/-- `bn`, `pscore_ipt.py:244`. -/
noncomputable def bn (n : ℝ) : ℝ := -n + (n - 1) * vStar n

/-- `an`, `pscore_ipt.py:245`. -/
noncomputable def an (n : ℝ) : ℝ := -(n - 1) * (1 - vStar n + 1 / 2 * vStar n ^ 2)

/-- `phi`, `pscore_ipt.py:251`. -/
noncomputable def phi (n v : ℝ) : ℝ :=
  if v < vStar n then -v - Real.exp (clip v) else an n + bn n * v + 1 / 2 * cn n * v ^ 2

/-- `phi1`, `pscore_ipt.py:252`. -/
noncomputable def phi1 (n v : ℝ) : ℝ := if v < vStar n then -1 - Real.exp (clip v) else bn n + cn n * v

/-- `phi2`, `pscore_ipt.py:253`. -/
noncomputable def phi2 (n v : ℝ) : ℝ := if v < vStar n then -Real.exp (clip v) else cn n

/-- Value of `_loss_ps_ipt`, `pscore_ipt.py:254`; the call passes the number of rows as `n_obs` (line 141). -/
noncomputable def iptValue (d : ι → Bool) (x : ι → κ → ℝ) (iw : ι → ℝ) (γ : κ → ℝ) : ℝ :=
  -∑ i, (iw i * (1 - ind d i) * phi (Fintype.card ι : ℝ) (fitted x γ i) + fitted x γ i)

/-- Gradient of `_loss_ps_ipt`, `pscore_ipt.py:256-257`. -/
noncomputable def iptGrad (d : ι → Bool) (x : ι → κ → ℝ) (iw : ι → ℝ) (γ : κ → ℝ) (k : κ) : ℝ :=
  -∑ i, x i k * (iw i * (1 - ind d i) * phi1 (Fintype.card ι : ℝ) (fitted x γ i) + 1)

/-- Hessian of `_loss_ps_ipt`, `pscore_ipt.py:259-261`. -/
noncomputable def iptHess (d : ι → Bool) (x : ι → κ → ℝ) (iw : ι → ℝ) (γ : κ → ℝ) (k l : κ) : ℝ :=
  -∑ i, x i k * ((1 - ind d i) * iw i * phi2 (Fintype.card ι : ℝ) (fitted x γ i)) * x i l

end Verif.DR.Tilt
