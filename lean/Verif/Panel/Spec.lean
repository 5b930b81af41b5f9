import Verif.Panel.Model

/-!
# Panel utilities: independent vocabulary

Plain-language predicates used to state the panel properties.  They mention rows only, never the
model's functions.
-/

namespace Verif.Panel

variable {ι τ β : Type*}

/-- Some row observes unit `u` in period `t`. -/
def Observed (df : List (Row ι τ β)) (u : ι) (t : τ) : Prop := ∃ r ∈ df, r.id = u ∧ r.t = t

/-- `u` is a unit of the panel. -/
def IsUnit (df : List (Row ι τ β)) (u : ι) : Prop := ∃ r ∈ df, r.id = u

/-- `t` is a period of the panel. -/
def IsPeriod (df : List (Row ι τ β)) (t : τ) : Prop := ∃ r ∈ df, r.t = t

/-- Unit `u` is observed in every period of the panel. -/
def FullyObserved (df : List (Row ι τ β)) (u : ι) : Prop := ∀ t, IsPeriod df t → Observed df u t

/-- No two rows share their (unit, period) pair. -/
def NoDuplicates (df : List (Row ι τ β)) : Prop :=
  df.Pairwise fun r s => ¬ (r.id = s.id ∧ r.t = s.t)

/-- Every unit is observed in every period. -/
def Balanced (df : List (Row ι τ β)) : Prop := ∀ u, IsUnit df u → FullyObserved df u

/-- The finite set of periods in which `u` is observed. -/
def SeenIn (df : List (Row ι τ β)) (u : ι) : Set τ := {t | Observed df u t}

end Verif.Panel
