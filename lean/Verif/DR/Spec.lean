import Verif.DR.Model

/-!
# Two-period estimators: specification

Textbook quantities the estimators are compared with, written with sums over groups of units only.
-/

namespace Verif.DR

variable {ι κ K : Type*} [Fintype ι] [Fintype κ] [Field K]

/-- Weighted average of `y` over the units satisfying `S`. -/
def wavg (w : ι → K) (S : ι → Prop) [DecidablePred S] (y : ι → K) : K :=
  (∑ i with S i, w i * y i) / ∑ i with S i, w i

/-- Two-period difference-in-differences of weighted mean changes. -/
def did2x2 (w : ι → K) (d : ι → Bool) (y1 y0 : ι → K) : K :=
  wavg w (fun i => d i = true) (fun i => y1 i - y0 i) - wavg w (fun i => d i = false) (fun i => y1 i - y0 i)

/-- Four-mean difference-in-differences for repeated cross-sections. -/
def did4 (w : ι → K) (d post : ι → Bool) (y : ι → K) : K :=
  (wavg w (fun i => d i = true ∧ post i = true) y - wavg w (fun i => d i = true ∧ post i = false) y) -
    (wavg w (fun i => d i = false ∧ post i = true) y - wavg w (fun i => d i = false ∧ post i = false) y)

/-- `β` satisfies the normal equations of the `w`-weighted least-squares regression of `y` on `x` among `sel`. -/
def NormalEq (w : ι → K) (sel : ι → Bool) (x : ι → κ → K) (y : ι → K) (β : κ → K) : Prop :=
  ∀ k, ∑ i with sel i = true, w i * (y i - ∑ l, x i l * β l) * x i k = 0

/-- The weighted Gram matrix of `x` on `sel` is nonsingular. -/
def FullRank (w : ι → K) (sel : ι → Bool) (x : ι → κ → K) : Prop :=
  ∀ v : κ → K, (∀ k, ∑ i with sel i = true, w i * (∑ l, x i l * v l) * x i k = 0) → v = 0

/-- First-order conditions of the `w`-weighted logit maximum likelihood at fitted scores `ps`. -/
def ScoreEq (w : ι → K) (d : ι → Bool) (x : ι → κ → K) (ps : ι → K) : Prop :=
  ∀ k, ∑ i, w i * ((if d i then 1 else 0) - ps i) * x i k = 0

end Verif.DR
