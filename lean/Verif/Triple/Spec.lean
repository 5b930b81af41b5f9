import Verif.DR.Spec

/-!
# Triple differences: specification

Independent of the model: weighted mean changes of the four subgroups and their triple difference.
-/

namespace Verif.Triple

variable {ι K : Type*} [Fintype ι] [Field K]

/-- Weighted mean change of subgroup `k`. -/
def change (w : ι → K) (sg : ι → ℕ) (y1 y0 : ι → K) (k : ℕ) : K :=
  DR.wavg w (fun i => sg i = k) fun i => y1 i - y0 i

/-- `(change 4 - change 3) - (change 2 - change 1)`. -/
def ddd (w : ι → K) (sg : ι → ℕ) (y1 y0 : ι → K) : K :=
  (change w sg y1 y0 4 - change w sg y1 y0 3) - (change w sg y1 y0 2 - change w sg y1 y0 1)

/-- Change between the two cross-sections of subgroup `k`: difference of weighted mean levels. -/
def changeRC (w : ι → K) (sg : ι → ℕ) (post : ι → Bool) (y : ι → K) (k : ℕ) : K :=
  DR.wavg w (fun i => sg i = k ∧ post i = true) y - DR.wavg w (fun i => sg i = k ∧ post i = false) y

/-- Triple difference of weighted mean levels, repeated cross-sections. -/
def dddLevels (w : ι → K) (sg : ι → ℕ) (post : ι → Bool) (y : ι → K) : K :=
  (changeRC w sg post y 4 - changeRC w sg post y 3) - (changeRC w sg post y 2 - changeRC w sg post y 1)

end Verif.Triple
