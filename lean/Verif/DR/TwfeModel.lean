import Verif.DR.Model
import Mathlib.Data.Fin.VecNotation

/-!
# Two-way fixed-effects regressions for two periods

`drdid/estimators/twfe_did_panel.py`, `twfe_did_rc.py`, `drdid/bootstrap/boot_mult.py:44-97` and
`boot_panel.py:505-594`.  A row of the stacked panel is a unit and a period (`false` = pre, `true` = post).  The weighted
least-squares fit itself (`sm.WLS(...).fit()`) is not modelled: coefficients are any solution of its normal equations.
-/

namespace Verif.DR

variable {ι κ K : Type*} [Fintype ι] [Fintype κ] [Field K]

/-- Stacked outcome, `twfe_did_panel.py:248`. -/
def twfeY (y0 y1 : ι → K) (r : ι × Bool) : K := if r.2 then y1 r.1 else y0 r.1

/-- Stacked weights, `twfe_did_panel.py:249`. -/
def twfeW (w : ι → K) (r : ι × Bool) : K := w r.1

/-- `post` of a stacked row, `twfe_did_panel.py:246`. -/
def twfeT (r : ι × Bool) : K := if r.2 then 1 else 0

/-- Stacked design `[1, d, post, d * post, x]`, `twfe_did_panel.py:240-251,256-264` (`x` is time-invariant). -/
def twfeX (d : ι → Bool) (x : ι → κ → K) (r : ι × Bool) : Fin 4 ⊕ κ → K
  | .inl 0 => 1
  | .inl 1 => ind d r.1
  | .inl 2 => twfeT r
  | .inl 3 => ind d r.1 * twfeT r
  | .inr k => x r.1 k

/-- Repeated cross-section design without covariates `[1, post, d, d * post]`, `twfe_did_rc.py:192-200`. -/
def twfeXrc (d post : ι → Bool) (i : ι) : Fin 4 → K :=
  ![1, ind post i, ind d i, ind d i * ind post i]

/-- Every row is used in the regression. -/
def allRows {ρ : Type*} (_ : ρ) : Bool := true

/-- Residual of a row. -/
def twfeRes {ρ c : Type*} [Fintype c] (X : ρ → c → K) (Y : ρ → K) (β : c → K) (r : ρ) : K := Y r - ∑ l, X r l * β l

/-- Influence values `(w * X * e) @ inv(X'WX / N) @ e_j`, `twfe_did_panel.py:280-292`; `M` stands for the inverse. -/
def twfeIF {ρ c : Type*} [Fintype c] (W : ρ → K) (X : ρ → c → K) (Y : ρ → K) (β : c → K) (M : c → c → K) (j : c) (r : ρ) : K :=
  ∑ k, W r * X r k * twfeRes X Y β r * M k j

/-- `x_prime_x`, `twfe_did_panel.py:280`. -/
def twfeGram {ρ c : Type*} [Fintype ρ] (W : ρ → K) (X : ρ → c → K) (k l : c) : K :=
  (∑ r, W r * X r k * X r l) / (Fintype.card ρ : K)

/-- Squared analytic standard error `(std(inf, ddof=1) / sqrt(N))^2`, `twfe_did_panel.py:120`. -/
def twfeVar {ρ : Type*} [Fintype ρ] (f : ρ → K) : K :=
  (∑ r, (f r - mean f) ^ 2) / ((Fintype.card ρ : K) - 1) / (Fintype.card ρ : K)

/-- One multiplier replication, `boot_mult.py:91-95` (`np.mean(linrep * concatenate([v, v]))`): both rows of a unit get the
unit's draw (see `tileDraws`). -/
def twfeMboot (f : ι × Bool → K) (v : ι → K) : K := mean (fun r => f r * v r.1)

/-- `np.concatenate([v, v])`, `boot_mult.py:93`. -/
def tileDraws {A : Type*} (v : List A) : List A := v ++ v

/-- `np.repeat(v, 2)`, `boot_panel.py:555`. -/
def repeatDraws {A : Type*} (v : List A) : List A := v.flatMap fun a => [a, a]

/-- Position of a unit's row in the stacked data, `twfe_did_panel.py:246-249`: first all pre rows, then all post rows. -/
def rowPos (n i : ℕ) (post : Bool) : ℕ := if post then n + i else i

end Verif.DR
