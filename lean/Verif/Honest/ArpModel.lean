import Verif.Honest.CompiledModel
import Verif.Honest.FoldedNormal

/-!
# Conditional (ARP) tests without nuisance parameters: model of `didhonest/conditional.py` and `didhonest/arp_no_nuisance.py`

`n` coefficients, `m` moment inequalities `A y <= d`.  Numbers are exact reals; the infinities and NaN that the code produces itself
are modelled (`Bnd`, `Ext`).  `none` is a raised exception.  `T_B` selects row `B`, so that `gamma = A_tilde[B]`,
`A_bar[i] = A_tilde[i] - A_tilde[B]`, `d_bar[i] = d_tilde[i] - d_tilde[B]` (the selection matrix itself is modelled in
`CompiledModel.lean`).
-/

set_option linter.unusedSectionVars false
set_option linter.unusedSimpArgs false

namespace Verif.Honest

open Finset Classical

/-- The threshold `1e-10` of `compute_bounds`, `_lee_coefficient` and the floor of the standard deviations, `numba.py:94,115,315`,
`arp_no_nuisance.py:304`, `conditional.py:47`. -/
noncomputable def arpTol : ℝ := 1 / 10 ^ 10

/-- `stats.norm.ppf` on `(0, 1)`. -/
noncomputable def ppf : ℝ → ℝ := Function.invFun Phi

/-- A critical value. -/
inductive Ext where
  | negInf : Ext
  | posInf : Ext
  | nan : Ext
  | fin (x : ℝ) : Ext

/-- A lower truncation point as a value. -/
def Bnd.asLower : Bnd ℝ → Ext
  | Bnd.infinite => Ext.negInf
  | Bnd.nan => Ext.nan
  | Bnd.fin x => Ext.fin x

/-- An upper truncation point as a value. -/
def Bnd.asUpper : Bnd ℝ → Ext
  | Bnd.infinite => Ext.posInf
  | Bnd.nan => Ext.nan
  | Bnd.fin x => Ext.fin x

/-- `stats.norm.cdf(l_std)` or `0`, `conditional.py:230,236`. -/
noncomputable def cdfLower (mu sd : ℝ) : Bnd ℝ → ℝ
  | Bnd.fin l => Phi ((l - mu) / sd)
  | _ => 0

/-- `stats.norm.cdf(u_std)` or `1`, `conditional.py:231,238`. -/
noncomputable def cdfUpper (mu sd : ℝ) : Bnd ℝ → ℝ
  | Bnd.fin u => Phi ((u - mu) / sd)
  | _ => 1

/-- `_norminvp_generalized`, `conditional.py:222-247`; `none` is the `ValueError`.  A NaN bound makes `p_trunc` NaN, both
comparisons false and `ppf` NaN. -/
noncomputable def norminvp (p : ℝ) (lo up : Bnd ℝ) (mu sd : ℝ) : Option Ext :=
  if sd ≤ 0 then none
  else if p ≤ 0 then some lo.asLower
  else if 1 ≤ p then some up.asUpper
  else if lo = Bnd.infinite ∧ up = Bnd.infinite then some (Ext.fin (mu + sd * ppf p))
  else if lo = Bnd.nan ∨ up = Bnd.nan then some Ext.nan
  else
    let pl := cdfLower mu sd lo
    let pu := cdfUpper mu sd up
    let pt := pl + p * (pu - pl)
    if pt ≤ pl then some lo.asLower
    else if pu ≤ pt then some up.asUpper
    else some (Ext.fin (mu + sd * ppf pt))

/-- `np.maximum(np.sqrt(np.diag(A @ sigma @ A.T)), 1e-10)`, `arp_no_nuisance.py:303-304,521-522,612-613`, `conditional.py:46-47`. -/
noncomputable def rowSd (n : ℕ) (sigma A : ℕ → ℕ → ℝ) (i : ℕ) : ℝ := max (Real.sqrt (etaSigmaEta n (A i) sigma)) arpTol

/-- `np.diag(1 / sigma_tilde) @ A`, `arp_no_nuisance.py:305,523,615`, `conditional.py:49`. -/
noncomputable def aTilde (n : ℕ) (sigma A : ℕ → ℕ → ℝ) (i j : ℕ) : ℝ := 1 / rowSd n sigma A i * A i j

/-- `d / sigma_tilde`, `arp_no_nuisance.py:306,524,616`, `conditional.py:50`. -/
noncomputable def dTilde (n : ℕ) (sigma A : ℕ → ℕ → ℝ) (d : ℕ → ℝ) (i : ℕ) : ℝ := d i / rowSd n sigma A i

/-- `A_tilde @ y - d_tilde`, `arp_no_nuisance.py:308,526`, `conditional.py:52`. -/
def moment (n : ℕ) (At : ℕ → ℕ → ℝ) (dt y : ℕ → ℝ) (i : ℕ) : ℝ := dotN n (At i) y - dt i

/-- `np.argmax`: the first position of the maximum, `arp_no_nuisance.py:309,527`, `conditional.py:54`. -/
noncomputable def argmaxFirst (m : ℕ) (f : ℕ → ℝ) : ℕ := (List.range m).foldl (fun b i => if f b < f i then i else b) 0

/-- `z = (I - c gamma') y`, `c = sigma gamma / gamma' sigma gamma`, `arp_no_nuisance.py:327-328,544-545`, `conditional.py:66-67`. -/
noncomputable def residual (n : ℕ) (sigma : ℕ → ℕ → ℝ) (gamma y : ℕ → ℝ) (j : ℕ) : ℝ :=
  y j - sigmaEta n gamma sigma j / etaSigmaEta n gamma sigma * dotN n gamma y

/-- `compute_bounds(eta=gamma, sigma=sigma, A=A_bar, b=d_bar, z=z)` for the compiled (`nb`) or the interpreted version,
`arp_no_nuisance.py:318-330,536-547`, `conditional.py:57-69`. -/
noncomputable def vBounds (nb : Bool) (n m : ℕ) (y : ℕ → ℝ) (sigma At : ℕ → ℕ → ℝ) (dt : ℕ → ℝ) (B : ℕ) :
    Option (Bnd ℝ × Bnd ℝ) :=
  (if nb then computeBoundsNb arpTol else computeBoundsPy arpTol) n m (At B) sigma (fun i j => At i j - At B j)
    (fun i => dt i - dt B) (residual n sigma (At B) y)

/-- `sigma_bar`, `arp_no_nuisance.py:326,543`, `conditional.py:64`. -/
noncomputable def sigmaBar (n : ℕ) (sigma : ℕ → ℕ → ℝ) (gamma : ℕ → ℝ) : ℝ := Real.sqrt (etaSigmaEta n gamma sigma)

/-- `max_moment < v_lo`, `arp_no_nuisance.py:335` (false for NaN and minus infinity). -/
def Bnd.above (x : ℝ) : Bnd ℝ → Prop
  | Bnd.fin l => x < l
  | _ => False

/-- Python's `max(0, c)`: `0` for NaN, `arp_no_nuisance.py:340,550`. -/
noncomputable def Ext.max0 : Ext → Ext
  | Ext.fin x => Ext.fin (max 0 x)
  | Ext.posInf => Ext.posInf
  | _ => Ext.fin 0

/-- `max_moment > critical_val`. -/
def Ext.below (x : ℝ) : Ext → Prop
  | Ext.fin c => c < x
  | Ext.negInf => True
  | _ => False

/-- `test_in_identified_set` from the scaled constraints, `arp_no_nuisance.py:308-352` (the caller passes them as `_precomputed`,
299-301, or they are computed, 303-306); `some true` = not rejected.  `m = 0`: `np.argmax` of an empty array raises. -/
noncomputable def arpCore (nb : Bool) (n m : ℕ) (y : ℕ → ℝ) (sigma At : ℕ → ℕ → ℝ) (dt : ℕ → ℝ) (alpha : ℝ) : Option Bool :=
  if m = 0 then none
  else
    let B := argmaxFirst m (moment n At dt y)
    let mm := moment n At dt y B
    if mm ≤ 0 then some true
    else
      (vBounds nb n m y sigma At dt B).bind fun v =>
        if v.1.above mm then some false
        else (norminvp (1 - alpha) v.1 v.2 (dt B) (sigmaBar n sigma (At B))).map fun c => !decide (c.max0.below mm)

/-- `test_in_identified_set`, `arp_no_nuisance.py:237-352`. -/
noncomputable def arpTest (nb : Bool) (n m : ℕ) (y : ℕ → ℝ) (sigma A : ℕ → ℕ → ℝ) (d : ℕ → ℝ) (alpha : ℝ) : Option Bool :=
  arpCore nb n m y sigma (aTilde n sigma A) (dTilde n sigma A d) alpha

/-- `alpha_tilde`, `arp_no_nuisance.py:436,548`. -/
noncomputable def alphaTilde (alpha kappa : ℝ) : ℝ := (alpha - kappa) / (1 - kappa)

/-- `test_in_identified_set_lf_hybrid`, `arp_no_nuisance.py:517-562`. -/
noncomputable def lfTest (nb : Bool) (n m : ℕ) (y : ℕ → ℝ) (sigma A : ℕ → ℕ → ℝ) (d : ℕ → ℝ) (alpha kappa lfCv : ℝ) : Option Bool :=
  let At := aTilde n sigma A
  let dt := dTilde n sigma A d
  if m = 0 then none
  else
    let B := argmaxFirst m (moment n At dt y)
    let mm := moment n At dt y B
    if lfCv < mm then some false
    else
      (vBounds nb n m y sigma At dt B).bind fun v =>
        (norminvp (1 - alphaTilde alpha kappa) v.1 v.2 (dt B) (sigmaBar n sigma (At B))).map fun c => !decide (c.max0.below mm)

/-- `test_in_identified_set_max`, `conditional.py:44-81`: returns whether the test REJECTS. -/
noncomputable def maxTest (nb : Bool) (n m : ℕ) (mValue : ℝ) (y : ℕ → ℝ) (sigma A : ℕ → ℕ → ℝ) (alpha : ℝ) (d : ℕ → ℝ) :
    Option Bool :=
  let At := aTilde n sigma A
  let dt := dTilde n sigma A (fun i => d i * mValue)
  if m = 0 then none
  else
    let B := argmaxFirst m (moment n At dt y)
    let mm := moment n At dt y B
    (vBounds nb n m y sigma At dt B).bind fun v =>
      (norminvp (1 - alpha) v.1 v.2 (dt B) (sigmaBar n sigma (At B))).map fun c => decide (c.below mm)

/-- `np.vstack([A, A_firststage])`, `arp_no_nuisance.py:428,439`: rows `m` and `m + 1` are `l'` and `-l'`. -/
def stackA (m : ℕ) (A : ℕ → ℕ → ℝ) (l : ℕ → ℝ) (i j : ℕ) : ℝ := if i < m then A i j else if i = m then l j else -l j

/-- `np.hstack([d, d_firststage])`, `arp_no_nuisance.py:429,440`. -/
def stackD (m : ℕ) (d : ℕ → ℝ) (half : ℝ) (i : ℕ) : ℝ := if i < m then d i else half

/-- `test_in_identified_set_flci_hybrid`, `arp_no_nuisance.py:424-448`; `lenL` is the length of `flci_l`: a length other than that of
`y` makes `A_firststage @ y` raise. -/
noncomputable def flciTest (nb : Bool) (n m : ℕ) (y : ℕ → ℝ) (sigma A : ℕ → ℕ → ℝ) (d : ℕ → ℝ) (alpha kappa half : ℝ) (lenL : ℕ)
    (l : ℕ → ℝ) : Option Bool :=
  if lenL ≠ n then none
  else if 0 < max (dotN n l y - half) (dotN n (fun j => -l j) y - half) then some false
  else arpTest nb n (m + 2) y sigma (stackA m A l) (stackD m d half) (alphaTilde alpha kappa)

end Verif.Honest
