import Verif.DR.Refit
import Mathlib.Data.Fin.VecNotation
import Mathlib.Algebra.Order.Field.Rat

/-!
# Trimmed observations and bootstrap replications (C112)

Given the refitted scores and regressions, a replication does not look at the outcomes of trimmed observations.
-/

set_option linter.unusedSectionVars false

namespace Verif.DR

variable {ι κ K : Type*} [Fintype ι] [Fintype κ] [Field K] [LinearOrder K] [IsStrictOrderedRing K]

theorem wsum_congr {w v v' : ι → K} (h : ∀ i, w i = 0 ∨ v i = v' i) : wsum w v = wsum w v' := by
  unfold wsum
  have : ∀ i, w i * v i = w i * v' i := fun i => by rcases h i with h | h <;> simp [h]
  simp only [this]

theorem renorm_cut {tr : ι → Bool} {b : ι → K} {i : ι} (h : tr i = false) : renorm (cutW tr b) i = 0 := by
  unfold renorm
  split_ifs <;> simp [cutW, h]

/-- Outcomes that agree on every observation that is not trimmed. -/
def SameUntrimmed (level : K) (d : ι → Bool) (ps y y' : ι → K) : Prop :=
  ∀ i, (d i = true ∨ ps i < level) → y i = y' i

theorem SameUntrimmed.cases {level : K} {d : ι → Bool} {ps y y' : ι → K} (h : SameUntrimmed level d ps y y') (i : ι) :
    trim level d ps i = false ∨ y i = y' i := by
  cases ht : trim level d ps i
  · exact Or.inl rfl
  · right; apply h
    unfold trim at ht
    by_cases hd : d i = true
    · exact Or.inl hd
    · right; simpa [hd] using ht

/-- **C112 (trimmed observations, panel).** Two outcome vectors that agree off the trimmed units, and for which the
regression step returns the same coefficients, give the same replication. -/
theorem C112_trimmed_panel (ols : OLS ι κ K) (logit : Logit ι κ K) (lo hi level : K) (dy dy' : ι → K)
    (d : ι → Bool) (x : ι → κ → K) (w v : ι → K)
    (hs : SameUntrimmed level d (clip lo hi (logit (drawW w v) d x)) dy dy')
    (ho : ∀ u sel, ols u sel x dy = ols u sel x dy') :
    wbootDrPanel ols logit lo hi level dy d x w v = wbootDrPanel ols logit lo hi level dy' d x w v ∧
    wbootImpPanel ols logit lo hi level dy d x w v = wbootImpPanel ols logit lo hi level dy' d x w v := by
  have key : ∀ out, aipwPanel d (clip lo hi (logit (drawW w v) d x)) out dy
        (cutW (trim level d (clip lo hi (logit (drawW w v) d x))) (drawW w v)) =
      aipwPanel d (clip lo hi (logit (drawW w v) d x)) out dy'
        (cutW (trim level d (clip lo hi (logit (drawW w v) d x))) (drawW w v)) := by
    intro out
    unfold aipwPanel
    dsimp only
    congr 1 <;>
    · apply wsum_congr
      intro i
      rcases hs.cases i with h | h
      · left; rw [renorm_cut h]; simp
      · right; rw [h]
  unfold wbootDrPanel wbootImpPanel
  simp only [ho, key, and_self]

/-- **C112 (trimmed observations, repeated cross-sections).** -/
theorem C112_trimmed_rc (ols : OLS ι κ K) (logit : Logit ι κ K) (lo hi level : K) (y y' : ι → K)
    (post d : ι → Bool) (x : ι → κ → K) (w v : ι → K)
    (hs : SameUntrimmed level d (clip lo hi (logit (drawW w v) d x)) y y')
    (ho : ∀ u sel, ols u sel x y = ols u sel x y') :
    wbootRC1 ols logit lo hi level y post d x w v = wbootRC1 ols logit lo hi level y' post d x w v ∧
    wbootRC2 ols logit lo hi level y post d x w v = wbootRC2 ols logit lo hi level y' post d x w v := by
  set ps := clip lo hi (logit (drawW w v) d x) with hps
  have hz : ∀ i, renorm (cutW (trim level d ps) (drawW w v)) i = 0 ∨ y i = y' i := by
    intro i
    rcases hs.cases i with h | h
    · exact Or.inl (renorm_cut h)
    · exact Or.inr h
  have k1 : ∀ out, aipwRC1 d post ps out y (cutW (trim level d ps) (drawW w v)) =
      aipwRC1 d post ps out y' (cutW (trim level d ps) (drawW w v)) := by
    intro out
    unfold aipwRC1
    dsimp only
    congr 1 <;> congr 1 <;>
    · apply wsum_congr
      intro i
      rcases hz i with h | h
      · left; rw [h]; simp
      · right; rw [h]
  have k2 : ∀ a b c e, aipwRC2 d post ps a b c e y (cutW (trim level d ps) (drawW w v)) =
      aipwRC2 d post ps a b c e y' (cutW (trim level d ps) (drawW w v)) := by
    intro a b c e
    have h1 : ∀ (o f : ι → K), wsum (fun i => renorm (cutW (trim level d ps) (drawW w v)) i * f i) (fun i => y i - o i) =
        wsum (fun i => renorm (cutW (trim level d ps) (drawW w v)) i * f i) (fun i => y' i - o i) := by
      intro o f
      apply wsum_congr
      intro i
      rcases hz i with h | h
      · left; rw [h]; simp
      · right; rw [h]
    unfold aipwRC2
    simp only [mul_assoc, mul_div_assoc] at h1 ⊢
    simp only [h1]
  constructor
  · unfold wbootRC1
    simp only [← hps, ho, k1]
  · unfold wbootRC2
    simp only [← hps, ho, k2]

/-- Non-vacuous: score 4/5 of the second unit is above the level 3/4, so only its outcome may differ. -/
example : SameUntrimmed (3 / 4 : ℚ) ![false, false, true] ![1 / 2, 4 / 5, 4 / 5] ![1, 2, 3] ![1, 7, 3] ∧
    (∀ (u : Fin 3 → ℚ) (sel : Fin 3 → Bool) (x : Fin 3 → Fin 1 → ℚ),
      (fun _ _ _ _ => (fun _ => 0) : OLS (Fin 3) (Fin 1) ℚ) u sel x ![1, 2, 3] =
      (fun _ _ _ _ => (fun _ => 0) : OLS (Fin 3) (Fin 1) ℚ) u sel x ![1, 7, 3]) := by
  refine ⟨?_, fun _ _ _ => rfl⟩
  unfold SameUntrimmed
  decide +kernel

end Verif.DR
