import Verif.Asym.DddAgg

set_option linter.unusedSectionVars false
set_option linter.unusedSimpArgs false

/-!
# C287: `agg_ddd` weights by whole cohorts, not by the units that are treated
-/

namespace Verif.Asym

open MeasureTheory ProbabilityTheory Filter Topology Verif.Honest Verif.DR Verif.Triple

variable {Ω 𝓧 : Type*} [MeasurableSpace Ω] [MeasurableSpace 𝓧]

/-! ## Specification -/

/-- Mean effect over the treated: every cell weighted by the population share of the eligible units of its cohort. -/
noncomputable def treatedMean (P : Measure Ω) (X : ℕ → Ω → 𝓧) (G : 𝓧 → WithTop ℤ) (E : 𝓧 → Bool) (y u : ℤ → 𝓧 → ℝ) (L : List (ℤ × ℤ)) : ℝ :=
  (L.map fun c => pop P X (inCohort G E c.1 true) * eligibleATT P X G E y u c.1 c.2).sum / (L.map fun c => pop P X (inCohort G E c.1 true)).sum

/-- The fraction of a cohort that is eligible. -/
noncomputable def eligibleFraction (P : Measure Ω) (X : ℕ → Ω → 𝓧) (G : 𝓧 → WithTop ℤ) (E : 𝓧 → Bool) (g : ℤ) : ℝ :=
  pop P X (inCohort G E g true) / popShare P X G each g

/-- Covariance over the cells, weighted by the shares of the whole cohorts, of eligible fraction and effect. -/
noncomputable def fractionCov (P : Measure Ω) (X : ℕ → Ω → 𝓧) (G : 𝓧 → WithTop ℤ) (E : 𝓧 → Bool) (y u : ℤ → 𝓧 → ℝ) (L : List (ℤ × ℤ)) : ℝ :=
  shareMean P X G each Prod.fst (fun c => eligibleFraction P X G E c.1 * eligibleATT P X G E y u c.1 c.2) L -
    shareMean P X G each Prod.fst (fun c => eligibleFraction P X G E c.1) L * shareMean P X G each Prod.fst (fun c => eligibleATT P X G E y u c.1 c.2) L

/-! ## C287 -/

section
variable {P : Measure Ω} [IsProbabilityMeasure P] {X : ℕ → Ω → 𝓧} (hX : Sampling P X) {G : 𝓧 → WithTop ℤ} {E : 𝓧 → Bool} {y u : ℤ → 𝓧 → ℝ} {level : ℝ} {bs : ℤ × ℤ → ℤ}
include hX

/-- **C287 (gap).**  The limit of the share-weighted effects exceeds the mean effect over the treated by minus the covariance of eligible fraction and effect, relative to the
mean fraction. -/
theorem C287_gap {L : List (ℤ × ℤ)} (hC : ∀ c ∈ L, TripleCell P X G E y u level c.1 c.2 (bs c)) (hL : L ≠ []) :
    shareMean P X G each Prod.fst (fun c => eligibleATT P X G E y u c.1 c.2) L - treatedMean P X G E y u L =
      -fractionCov P X G E y u L / shareMean P X G each Prod.fst (fun c => eligibleFraction P X G E c.1) L ∧
    0 < shareMean P X G each Prod.fst (fun c => eligibleFraction P X G E c.1) L := by
  have hp : ∀ c ∈ L, 0 < popShare P X G each c.1 := fun c hc => cohort_pos hX (hC c hc)
  have hS : 0 < (L.map fun c => popShare P X G each c.1).sum := by
    refine List.sum_pos _ (fun v hv => ?_) (by simpa using hL)
    obtain ⟨c, hc, rfl⟩ := List.mem_map.1 hv
    exact hp c hc
  have hE : 0 < (L.map fun c => pop P X (inCohort G E c.1 true)).sum := by
    refine List.sum_pos _ (fun v hv => ?_) (by simpa using hL)
    obtain ⟨c, hc, rfl⟩ := List.mem_map.1 hv
    exact (hC c hc).cohort true
  have e1 : (L.map fun c => popShare P X G each c.1 * eligibleFraction P X G E c.1) = L.map fun c => pop P X (inCohort G E c.1 true) :=
    List.map_congr_left fun c hc => by
      unfold eligibleFraction
      rw [mul_div_cancel₀ _ (hp c hc).ne']
  have e2 : (L.map fun c => popShare P X G each c.1 * (eligibleFraction P X G E c.1 * eligibleATT P X G E y u c.1 c.2)) =
      L.map fun c => pop P X (inCohort G E c.1 true) * eligibleATT P X G E y u c.1 c.2 :=
    List.map_congr_left fun c hc => by
      unfold eligibleFraction
      rw [← mul_assoc, mul_div_cancel₀ _ (hp c hc).ne']
  unfold fractionCov treatedMean shareMean
  rw [e1, e2]
  refine ⟨?_, div_pos hE hS⟩
  field_simp
  ring

variable (hess : ∀ g, HessFam G E g X) (m : Est) {hi : ℝ} (hi0 : 0 < hi) (hi1 : hi < 1) {D : List (ℤ × ℤ)} {gl tl : List ℤ} (hd : InData D gl tl)
include hi0 hi1 hd

/-- **C287 (equal fractions).**  If the eligible are the same fraction of every cohort that enters, the effect at an event time tends to the mean effect over the treated. -/
theorem C287_equal_fractions {e : ℤ} (hC : ∀ c ∈ eventCells D e, TripleCell P X G E y u level c.1 c.2 (bs c)) (hD : eventCells D e ≠ []) {minE maxE : Option ℤ}
    (he : Agg.inRange minE maxE e) {r : ℝ} (hr : ∀ c ∈ eventCells D e, eligibleFraction P X G E c.1 = r) :
    ∀ᵐ ω ∂P, ∃ att : ℕ → ℝ, (∀ᶠ n in atTop, ∃ psi, rowOf (dEvent minE maxE (tripleTable G E y bs X hess m hi level D gl tl n ω)).effects e = some (att n, psi)) ∧
      Tendsto att atTop (𝓝 (treatedMean P X G E y u (eventCells D e))) := by
  have hcov : fractionCov P X G E y u (eventCells D e) = 0 := by
    have hS : ((eventCells D e).map fun c => popShare P X G each c.1).sum ≠ 0 := by
      refine (List.sum_pos _ (fun v hv => ?_) (by simpa using hD)).ne'
      obtain ⟨c, hc, rfl⟩ := List.mem_map.1 hv
      exact cohort_pos hX (hC c hc)
    unfold fractionCov shareMean
    rw [List.map_congr_left (g := fun c => r * (popShare P X G each c.1 * eligibleATT P X G E y u c.1 c.2)) fun c hc => by simp only [hr c hc]; ring,
      List.map_congr_left (f := fun c : ℤ × ℤ => popShare P X G each c.1 * eligibleFraction P X G E c.1) (g := fun c => r * popShare P X G each c.1) fun c hc => by simp only [hr c hc]; ring,
      List.sum_map_mul_left, List.sum_map_mul_left]
    field_simp
    ring
  have hgap := (C287_gap hX hC hD).1
  rw [hcov, neg_zero, zero_div, sub_eq_zero] at hgap
  filter_upwards [(C284_event hX hess m hi0 hi1 hd hC hD he).limit] with ω hω
  obtain ⟨att, se, h1, h2, -⟩ := hω
  exact ⟨att, h1.mono fun n ⟨psi, h, _⟩ => ⟨psi, h⟩, hgap ▸ h2⟩

/-- **C287 (violated).**  If eligible fraction and effect are correlated over the cohorts that enter, the effect at an event time tends, with probability one, to a number
other than the mean effect over the treated. -/
theorem C287_treated_violated {e : ℤ} (hC : ∀ c ∈ eventCells D e, TripleCell P X G E y u level c.1 c.2 (bs c)) (hD : eventCells D e ≠ []) {minE maxE : Option ℤ}
    (he : Agg.inRange minE maxE e) (hcov : fractionCov P X G E y u (eventCells D e) ≠ 0) :
    ∃ l, l ≠ treatedMean P X G E y u (eventCells D e) ∧
    ∀ᵐ ω ∂P, ∃ att : ℕ → ℝ, (∀ᶠ n in atTop, ∃ psi, rowOf (dEvent minE maxE (tripleTable G E y bs X hess m hi level D gl tl n ω)).effects e = some (att n, psi)) ∧
      Tendsto att atTop (𝓝 l) := by
  obtain ⟨hgap, hpos⟩ := C287_gap hX hC hD
  refine ⟨shareMean P X G each Prod.fst (fun c => eligibleATT P X G E y u c.1 c.2) (eventCells D e), fun h => ?_, ?_⟩
  · rw [h, sub_self] at hgap
    exact div_ne_zero (neg_ne_zero.2 hcov) hpos.ne' hgap.symm
  · filter_upwards [(C284_event hX hess m hi0 hi1 hd hC hD he).limit] with ω hω
    obtain ⟨att, se, h1, h2, -⟩ := hω
    exact ⟨att, h1.mono fun n ⟨psi, h, _⟩ => ⟨psi, h⟩, h2⟩

end

/-! ## Non-vacuity: half of cohort 2 and three quarters of cohort 3 are eligible, effects 4 and 6 -/

def cvE (z : Crews) : Bool := if z.1 = 1 then z.2.1 || z.2.2 else z.2.1
def cvU (s : ℤ) (z : Crews) : ℝ := s * (stStart z.1 + 3 * num (cvE z))
noncomputable def cvY (s : ℤ) (z : Crews) : ℝ := if cwG z ≤ (s : WithTop ℤ) ∧ cvE z = true then cvU s z + 2 * s else cvU s z

theorem cv_arm (k : Fin 3) (e p q : Bool) (g : ℤ) (hg : g = 2 ∨ g = 3) :
    inCohort cwG cvE g q (k, e, p) = (if stStart k = g ∧ cvE (k, e, p) = q then 1 else 0) ∧ inNever cwG cvE q (k, e, p) = if k = 2 ∧ cvE (k, e, p) = q then 1 else 0 := by
  have e2 : ∀ p q : ℤ, ((p : WithTop ℤ) = (q : WithTop ℤ)) ↔ p = q := fun p q => WithTop.coe_inj
  have e3 : ∀ p : ℤ, (⊤ : WithTop ℤ) ≠ (p : WithTop ℤ) := fun p => WithTop.top_ne_coe
  have c0 : ∀ j p, cwG (0, j, p) = ((2 : ℤ) : WithTop ℤ) := fun _ _ => rfl
  have c1 : ∀ j p, cwG (1, j, p) = ((3 : ℤ) : WithTop ℤ) := fun _ _ => rfl
  have c2 : ∀ j p, cwG (2, j, p) = ⊤ := fun _ _ => rfl
  unfold inCohort inNever
  rcases (by decide +revert : k = 0 ∨ k = 1 ∨ k = 2) with rfl | rfl | rfl <;> rcases hg with rfl | rfl <;> simp [c0, c1, c2, e2, e3, stStart]

theorem cv_ok (g : ℤ) (hg : g = 2 ∨ g = 3) : TripleCell (draws Crews) draw cwG cvE cvY cvU (995 / 1000) g g (g - 1) := by
  refine ⟨fun A => Set.Finite.measurableSet (Set.toFinite _), measurable_of_finite _, draws_sq _, draws_int fun z => inCohort cwG cvE g true z * (cvU g z - cvU (g - 1) z),
    fun q => ?_, fun q => ?_, fun z hz => ?_, fun z hz => ?_, ?_, ?_, fun q => ?_⟩
  · rw [cw_pop]
    simp only [(cv_arm _ _ _ _ g hg).1]
    rcases hg with rfl | rfl <;> cases q <;> simp [stStart, cvE] <;> norm_num
  · rw [cw_pop]
    simp only [(cv_arm _ _ _ _ g hg).2]
    cases q <;> simp [cvE] <;> norm_num
  · unfold cvY
    rw [if_neg]
    rintro ⟨h1, -⟩
    rcases hz with hz | hz
    · rw [hz] at h1
      exact absurd (WithTop.coe_le_coe.1 h1) (by omega)
    · rw [hz] at h1
      exact absurd h1 (by simp)
  · unfold cvY
    rw [if_neg]
    rintro ⟨h1, h2⟩
    rcases hz with hz | hz
    · rw [hz.2] at h2
      exact absurd h2 (by simp)
    · rw [hz] at h1
      exact absurd h1 (by simp)
  · unfold wMean
    simp only [cw_pop, (cv_arm _ _ _ _ g hg).1, (cv_arm _ _ _ _ g hg).2]
    rcases hg with rfl | rfl <;> simp [stStart, cvU, num, cvE] <;> try norm_num
  · simp only [cw_pop, (cv_arm _ _ _ _ g hg).1]
    rcases hg with rfl | rfl <;> simp [stStart, cvE] <;> norm_num
  · simp only [cw_pop, (cv_arm _ _ _ _ g hg).1, (cv_arm _ _ _ _ g hg).2]
    rcases hg with rfl | rfl <;> cases q <;> simp [stStart, cvE] <;> norm_num

theorem cv_att (g : ℤ) (hg : g = 2 ∨ g = 3) : eligibleATT (draws Crews) draw cwG cvE cvY cvU g g = 2 * g := by
  have c0 : ∀ j p, cwG (0, j, p) = ((2 : ℤ) : WithTop ℤ) := fun _ _ => rfl
  have c1 : ∀ j p, cwG (1, j, p) = ((3 : ℤ) : WithTop ℤ) := fun _ _ => rfl
  unfold eligibleATT wMean
  simp only [cw_pop, (cv_arm _ _ _ _ g hg).1]
  rcases hg with rfl | rfl
  · have h : ((2 : ℤ) : WithTop ℤ) ≤ ((2 : ℤ) : WithTop ℤ) := le_rfl
    simp [stStart, cvY, num, cvE, c0, c1, h]
    try norm_num
  · have h : ((3 : ℤ) : WithTop ℤ) ≤ ((3 : ℤ) : WithTop ℤ) := le_rfl
    simp [stStart, cvY, num, cvE, c0, c1, h]
    try norm_num

/-- With a never-treated comparison, the default method, cap and trimming level, the effect at event time 0 tends to another number than the mean over the treated. -/
example (hess : ∀ g, HessFam cwG cvE g (draw (𝓧 := Crews))) :
    ∃ l, l ≠ treatedMean (draws Crews) draw cwG cvE cvY cvU (eventCells crewCells 0) ∧
    ∀ᵐ ω ∂(draws Crews), ∃ att : ℕ → ℝ, (∀ᶠ n in atTop, ∃ psi,
      rowOf (dEvent none none (tripleTable cwG cvE cvY (fun c => c.1 - 1) draw hess .dr (1 - 1 / 10 ^ 6) (995 / 1000) crewCells [2, 3] [1, 2, 3] n ω)).effects 0 = some (att n, psi)) ∧
      Tendsto att atTop (𝓝 l) := by
  refine C287_treated_violated draws_sampling hess .dr (by norm_num) (by norm_num) crew_data (fun c hc => ?_) (by rw [crew_zero]; simp) ⟨by simp, by simp⟩ ?_
  · rw [crew_zero] at hc
    simp only [List.mem_cons, List.not_mem_nil, or_false] at hc
    rcases hc with rfl | rfl
    exacts [cv_ok 2 (.inl rfl), cv_ok 3 (.inr rfl)]
  · have s : ∀ g : ℤ, g = 2 ∨ g = 3 → popShare (draws Crews) draw cwG each g = 1 / 3 := by
      intro g hg
      have c0 : ∀ j p, cwG (0, j, p) = ((2 : ℤ) : WithTop ℤ) := fun _ _ => rfl
      have c1 : ∀ j p, cwG (1, j, p) = ((3 : ℤ) : WithTop ℤ) := fun _ _ => rfl
      have c2 : ∀ j p, cwG (2, j, p) = ⊤ := fun _ _ => rfl
      unfold popShare isG
      rw [cw_pop]
      rcases hg with rfl | rfl <;> simp only [c0, c1, c2, WithTop.coe_inj, WithTop.top_ne_coe] <;> norm_num
    have f2 : eligibleFraction (draws Crews) draw cwG cvE 2 = 1 / 2 := by
      unfold eligibleFraction
      rw [s 2 (.inl rfl), cw_pop]
      simp only [(cv_arm _ _ _ _ 2 (.inl rfl)).1]
      simp [stStart, cvE]
      norm_num
    have f3 : eligibleFraction (draws Crews) draw cwG cvE 3 = 3 / 4 := by
      unfold eligibleFraction
      rw [s 3 (.inr rfl), cw_pop]
      simp only [(cv_arm _ _ _ _ 3 (.inr rfl)).1]
      simp [stStart, cvE]
      norm_num
    rw [crew_zero]
    unfold fractionCov shareMean
    simp only [List.map_cons, List.map_nil, List.sum_cons, List.sum_nil, add_zero, f2, f3, s 2 (.inl rfl), s 3 (.inr rfl), cv_att 2 (.inl rfl), cv_att 3 (.inr rfl)]
    norm_num

end Verif.Asym
