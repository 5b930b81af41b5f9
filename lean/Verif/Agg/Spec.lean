import Verif.Agg.Model

/-!
# Specification of aggregation in terms of original cohorts and periods
-/

namespace Verif.Agg

variable {ι K : Type*} [Fintype ι] [Field K]

/-- Weighted share of units first treated in `g`. -/
def share (G : ι → WithTop ℤ) (w : ι → K) (g : ℤ) : K :=
  (∑ i, if G i = (g : WithTop ℤ) then w i else 0) / (Fintype.card ι : K)

/-- Sum of the cohort shares of the cells satisfying `p`. -/
def totalShare (G : ι → WithTop ℤ) (w : ι → K) (cs : List (Cell ι K)) (p : Cell ι K → Bool) : K :=
  ((cs.filter p).map fun c => share G w c.g).sum

/-- Cohort-share weighted mean of the estimates of the cells satisfying `p`. -/
def weightedMean (G : ι → WithTop ℤ) (w : ι → K) (cs : List (Cell ι K)) (p : Cell ι K → Bool) : K :=
  ((cs.filter p).map fun c => share G w c.g * c.att).sum / totalShare G w cs p

/-- Plain mean of a list of numbers. -/
def plainMean (l : List K) : K := l.sum / (l.length : K)

/-- Post-treatment cell. -/
def post (c : Cell ι K) : Bool := decide (c.g ≤ c.t)

/-- Cell at event time `e`. -/
def atEvent (e : ℤ) (c : Cell ι K) : Bool := decide (c.t - c.g = e)

/-- Post-treatment cell in period `t`. -/
def atPeriod (t : ℤ) (c : Cell ι K) : Bool := decide (c.t = t ∧ c.g ≤ t)

/-- Post-treatment cell of cohort `g`. -/
def ofCohort (g : ℤ) (c : Cell ι K) : Bool := decide (c.g = g ∧ g ≤ c.t)

/-- Number of distinct cohort or period values `x` occurring in the cells with `g < x ≤ t`. -/
def steps (cs : List (Cell ι K)) (g t : ℤ) : ℕ :=
  ((cs.map Cell.t ++ cs.map Cell.g).dedup.filter fun x => decide (g < x ∧ x ≤ t)).length

/-- `a` is a weighted average of the numbers in `l`: non-negative weights summing to one. -/
def IsWeightedAverage [LE K] (a : K) (l : List K) : Prop :=
  ∃ ws : List K, ws.length = l.length ∧ (∀ x ∈ ws, 0 ≤ x) ∧ ws.sum = 1 ∧ (List.zipWith (· * ·) ws l).sum = a

/-- Contribution of unit `i` to the estimation error of cohort `g`'s weight `share g / Σ share`, the sum running over
the list `gs` of combined cohorts. -/
def shareIF (G : ι → WithTop ℤ) (w : ι → K) (gs : List ℤ) (g : ℤ) (i : ι) : K :=
  let S := (gs.map (share G w)).sum
  let err := fun h : ℤ => (if G i = (h : WithTop ℤ) then w i else 0) - share G w h
  err g / S - share G w g * (gs.map err).sum / S ^ 2

/-- The cohorts of the cells satisfying `p`. -/
def cohorts (cs : List (Cell ι K)) (p : Cell ι K → Bool) : List ℤ := (cs.filter p).map Cell.g

/-- Influence values of a share-weighted mean: the same combination of the cells' influence values plus the correction
for estimated shares. -/
def meanIF (G : ι → WithTop ℤ) (w : ι → K) (cs : List (Cell ι K)) (p : Cell ι K → Bool) (i : ι) : K :=
  ((cs.filter p).map fun c => share G w c.g * c.psi i).sum / totalShare G w cs p +
    ((cs.filter p).map fun c => shareIF G w (cohorts cs p) c.g i * c.att).sum

/-- `m` is the last (first) period of the cells. -/
def IsLastPeriod (cs : List (Cell ι K)) (m : ℤ) : Prop := (∃ c ∈ cs, c.t = m) ∧ ∀ c ∈ cs, c.t ≤ m
def IsFirstPeriod (cs : List (Cell ι K)) (m : ℤ) : Prop := (∃ c ∈ cs, c.t = m) ∧ ∀ c ∈ cs, m ≤ c.t

end Verif.Agg
