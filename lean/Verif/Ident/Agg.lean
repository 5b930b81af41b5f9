import Verif.Ident.AttGt
import Verif.Agg.Props2

set_option linter.unusedSectionVars false
set_option linter.unusedSimpArgs false

/-!
# C250: what `aggte` estimates on average

The cohorts, weights and the list of cells are fixed, the estimates of the cells are random with means `τ g t`.
-/

namespace Verif.Ident

open Verif.Agg MeasureTheory

variable {ι Ω : Type*} [Fintype ι] [MeasurableSpace Ω]

/-! ## Specification -/

/-- The table of estimates in state `ω`: one cell per (cohort, period) of `D`, with arbitrary influence values. -/
noncomputable def table (D : List (ℤ × ℤ)) (A : ℤ → ℤ → Ω → ℝ) (psi : Ω → ℤ → ℤ → ι → ℝ) (ω : Ω) : List (Cell ι ℝ) :=
  D.map fun p => ⟨p.1, p.2, A p.1 p.2 ω, psi ω p.1 p.2⟩

/-- Mean of the effects `τ` of the cells satisfying `q`, weighted by cohort shares. -/
noncomputable def shareMean (G : ι → WithTop ℤ) (w : ι → ℝ) (D : List (ℤ × ℤ)) (τ : ℤ → ℤ → ℝ) (q : ℤ × ℤ → Bool) : ℝ :=
  ((D.filter q).map fun p => share G w p.1 * τ p.1 p.2).sum / ((D.filter q).map fun p => share G w p.1).sum

/-- Every cell estimate has mean `τ`. -/
def Unbiased (P : Measure Ω) (D : List (ℤ × ℤ)) (A : ℤ → ℤ → Ω → ℝ) (τ : ℤ → ℤ → ℝ) : Prop :=
  ∀ p ∈ D, Integrable (A p.1 p.2) P ∧ ∫ ω, A p.1 p.2 ω ∂P = τ p.1 p.2

/-! ## Lemmas -/

theorem table_filter (D : List (ℤ × ℤ)) (A : ℤ → ℤ → Ω → ℝ) (psi : Ω → ℤ → ℤ → ι → ℝ) (ω : Ω) (q : ℤ × ℤ → Bool) (p : Cell ι ℝ → Bool)
    (h : ∀ c, p c = q (c.g, c.t)) : (table D A psi ω).filter p = table (D.filter q) A psi ω := by
  unfold table
  rw [List.filter_map]
  congr 1
  apply List.filter_congr
  intro x _
  exact h _

theorem table_mean (G : ι → WithTop ℤ) (w : ι → ℝ) (D : List (ℤ × ℤ)) (A : ℤ → ℤ → Ω → ℝ) (psi : Ω → ℤ → ℤ → ι → ℝ) (ω : Ω) (q : ℤ × ℤ → Bool)
    (p : Cell ι ℝ → Bool) (h : ∀ c, p c = q (c.g, c.t)) :
    weightedMean G w (table D A psi ω) p = shareMean G w D (fun g t => A g t ω) q ∧
      totalShare G w (table D A psi ω) p = ((D.filter q).map fun p => share G w p.1).sum := by
  unfold weightedMean totalShare shareMean
  rw [table_filter D A psi ω q p h]
  unfold table
  simp only [List.map_map, Function.comp_def, and_self]

theorem shareMean_integral (P : Measure Ω) (G : ι → WithTop ℤ) (w : ι → ℝ) (D : List (ℤ × ℤ)) (A : ℤ → ℤ → Ω → ℝ) (τ : ℤ → ℤ → ℝ)
    (hA : Unbiased P D A τ) (q : ℤ × ℤ → Bool) : Integrable (fun ω => shareMean G w D (fun g t => A g t ω) q) P ∧
      ∫ ω, shareMean G w D (fun g t => A g t ω) q ∂P = shareMean G w D τ q := by
  unfold shareMean
  have key := list_integral P (D.filter q) (fun ω p => share G w p.1 * A p.1 p.2 ω) fun p hp => (hA p (List.mem_filter.1 hp).1).1.const_mul _
  refine ⟨key.1.div_const _, ?_⟩
  rw [integral_div, key.2]
  congr 2
  apply List.map_congr_left
  intro p hp
  rw [integral_const_mul, (hA p (List.mem_filter.1 hp).1).2]

/-! ## C250 -/

section
variable (P : Measure Ω) (G : ι → WithTop ℤ) (w : ι → ℝ) (D : List (ℤ × ℤ)) (A : ℤ → ℤ → Ω → ℝ)
  (psi : Ω → ℤ → ℤ → ι → ℝ) (τ : ℤ → ℤ → ℝ) (hA : Unbiased P D A τ)
include hA

/-- **C250.**  The simple aggregate is unbiased for the share-weighted mean effect of the post-treatment cells. -/
theorem C250_simple (hpos : ((D.filter fun p => decide (p.1 ≤ p.2)).map fun p => share G w p.1).sum ≠ 0) :
    ∃ X : Ω → ℝ, (∀ ω, (simpleAgg G w none (table D A psi ω)).1 = some (X ω)) ∧ Integrable X P ∧
      ∫ ω, X ω ∂P = shareMean G w D τ fun p => decide (p.1 ≤ p.2) := by
  have hm := fun ω => table_mean G w D A psi ω (fun p => decide (p.1 ≤ p.2)) post fun _ => rfl
  refine ⟨fun ω => shareMean G w D (fun g t => A g t ω) fun p => decide (p.1 ≤ p.2), fun ω => ?_, shareMean_integral P G w D A τ hA _⟩
  rw [C32_simple G w _ (by rw [(hm ω).2]; exact hpos), (hm ω).1]

/-- **C250.**  The reported effect at event time `e` is unbiased for the share-weighted mean effect of the cells `e` periods after treatment
started. -/
theorem C250_event (minE maxE : Option ℤ) (e : ℤ) (hpos : ((D.filter fun p => decide (p.2 - p.1 = e)).map fun p => share G w p.1).sum ≠ 0)
    (hrange : inRange minE maxE e) :
    ∃ X : Ω → ℝ, (∀ ω, ∃ x ∈ (dynamicAgg G w none minE maxE (table D A psi ω)).effects, x.label = e ∧ x.att = some (X ω)) ∧ Integrable X P ∧
      ∫ ω, X ω ∂P = shareMean G w D τ fun p => decide (p.2 - p.1 = e) := by
  have hm := fun ω => table_mean G w D A psi ω (fun p => decide (p.2 - p.1 = e)) (atEvent e) fun _ => rfl
  refine ⟨fun ω => shareMean G w D (fun g t => A g t ω) fun p => decide (p.2 - p.1 = e), fun ω => ?_, shareMean_integral P G w D A τ hA _⟩
  have hspec := C32_dynamic G w minE maxE (table D A psi ω)
  have hne : ∃ p ∈ D, p.2 - p.1 = e := by
    by_contra hc
    push Not at hc
    refine hpos ?_
    rw [List.filter_eq_nil_iff.2 fun p hp => by simpa using hc p hp]
    rfl
  have hl : e ∈ (dynamicAgg G w none minE maxE (table D A psi ω)).effects.map Eff.label := by
    rw [hspec.2.1]
    obtain ⟨p, hp, hpe⟩ := hne
    exact ⟨⟨⟨p.1, p.2, A p.1 p.2 ω, psi ω p.1 p.2⟩, List.mem_map.2 ⟨p, hp, rfl⟩, hpe⟩, hrange⟩
  obtain ⟨x, hx, rfl⟩ := List.mem_map.1 hl
  refine ⟨x, hx, rfl, ?_⟩
  rw [hspec.2.2 x hx (by rw [(hm ω).2]; exact hpos), (hm ω).1]

/-- **C250.**  The reported effect of calendar period `t` is unbiased for the share-weighted mean effect of the cohorts treated by then. -/
theorem C250_calendar (t : ℤ) (hpos : ((D.filter fun p => decide (p.2 = t ∧ p.1 ≤ t)).map fun p => share G w p.1).sum ≠ 0) :
    ∃ X : Ω → ℝ, (∀ ω, ∃ x ∈ (calendarAgg G w (table D A psi ω)).effects, x.label = t ∧ x.att = some (X ω)) ∧ Integrable X P ∧
      ∫ ω, X ω ∂P = shareMean G w D τ fun p => decide (p.2 = t ∧ p.1 ≤ t) := by
  have hm := fun ω => table_mean G w D A psi ω (fun p => decide (p.2 = t ∧ p.1 ≤ t)) (atPeriod t) fun _ => rfl
  refine ⟨fun ω => shareMean G w D (fun g s => A g s ω) fun p => decide (p.2 = t ∧ p.1 ≤ t), fun ω => ?_, shareMean_integral P G w D A τ hA _⟩
  have hspec := C32_calendar G w (table D A psi ω)
  have hne : ∃ p ∈ D, p.2 = t ∧ p.1 ≤ t := by
    by_contra hc
    push Not at hc
    refine hpos ?_
    rw [List.filter_eq_nil_iff.2 fun p hp => by simpa using hc p hp]
    rfl
  have hl : t ∈ (calendarAgg G w (table D A psi ω)).effects.map Eff.label := by
    rw [hspec.2.1]
    obtain ⟨p, hp, hpt, hpg⟩ := hne
    have hmem : (⟨p.1, p.2, A p.1 p.2 ω, psi ω p.1 p.2⟩ : Cell ι ℝ) ∈ table D A psi ω := List.mem_map.2 ⟨p, hp, rfl⟩
    exact ⟨⟨_, hmem, hpt⟩, ⟨_, hmem, hpg⟩⟩
  obtain ⟨x, hx, rfl⟩ := List.mem_map.1 hl
  refine ⟨x, hx, rfl, ?_⟩
  rw [(hspec.2.2 x hx).2 (by rw [(hm ω).2]; exact hpos), (hm ω).1]

/-- **C250.**  The reported effect of cohort `g` is unbiased for the plain mean effect over its post-treatment cells. -/
theorem C250_group (g : ℤ) (hne : ∃ p ∈ D, p.1 = g ∧ g ≤ p.2) :
    ∃ X : Ω → ℝ, (∀ ω, ∃ x ∈ (groupAgg G w none (table D A psi ω)).effects, x.label = g ∧ x.att = some (X ω)) ∧ Integrable X P ∧
      ∫ ω, X ω ∂P = ((D.filter fun p => decide (p.1 = g ∧ g ≤ p.2)).map fun p => τ p.1 p.2).sum /
        ((D.filter fun p => decide (p.1 = g ∧ g ≤ p.2)).length : ℝ) := by
  have key := list_integral P (D.filter fun p => decide (p.1 = g ∧ g ≤ p.2)) (fun ω p => A p.1 p.2 ω) fun p hp => (hA p (List.mem_filter.1 hp).1).1
  refine ⟨fun ω => ((D.filter fun p => decide (p.1 = g ∧ g ≤ p.2)).map fun p => A p.1 p.2 ω).sum /
    ((D.filter fun p => decide (p.1 = g ∧ g ≤ p.2)).length : ℝ), fun ω => ?_, key.1.div_const _, ?_⟩
  · have hspec := C32_group G w (table D A psi ω)
    obtain ⟨p, hp, hpg, hpt⟩ := hne
    have hmem : (⟨p.1, p.2, A p.1 p.2 ω, psi ω p.1 p.2⟩ : Cell ι ℝ) ∈ table D A psi ω := List.mem_map.2 ⟨p, hp, rfl⟩
    have hl : g ∈ (groupAgg G w none (table D A psi ω)).effects.map Eff.label := by
      rw [hspec.2.1]
      exact ⟨_, hmem, hpg⟩
    obtain ⟨x, hx, rfl⟩ := List.mem_map.1 hl
    refine ⟨x, hx, rfl, ?_⟩
    rw [((hspec.2.2 x hx).2 ⟨_, hmem, hpg, hpt⟩).1]
    unfold plainMean
    rw [table_filter D A psi ω (fun p => decide (p.1 = x.label ∧ x.label ≤ p.2)) (ofCohort x.label) fun _ => rfl]
    unfold table
    simp only [List.map_map, Function.comp_def, List.length_map]
  · rw [integral_div, key.2]
    congr 2
    apply List.map_congr_left
    intro p hp
    exact (hA p (List.mem_filter.1 hp).1).2

end

/-- Cohorts of four units. -/
def exG4 (i : Fin 4) : WithTop ℤ := ([2, 3, 3, ⊤] : List (WithTop ℤ))[i]

/-- Two cohorts of shares 1/4 and 1/2, effects 4 and 1 one period after treatment, noise from a fair coin: the event-time-0 effect is unbiased for
`(1/4 · 4 + 1/2 · 1) / (3/4) = 2`. -/
example : ∃ X : ℝ → ℝ, (∀ ω, ∃ x ∈ (dynamicAgg exG4 (fun _ => 1) none none none
      (table [(2, 2), (2, 3), (3, 3)] (fun g _ e => (if g = 2 then 4 else 1) + (g : ℝ) * e) (fun _ _ _ _ => 0) ω)).effects,
        x.label = 0 ∧ x.att = some (X ω)) ∧ Integrable X coin ∧ ∫ ω, X ω ∂coin = 2 := by
  have hs : ∀ g : ℤ, share exG4 (fun _ => (1 : ℝ)) g =
      ((if g = 2 then 1 else 0) + (if g = 3 then 2 else 0)) / 4 := by
    intro g
    have e2 : ((2 : WithTop ℤ) = (g : WithTop ℤ)) ↔ g = 2 := by
      rw [show (2 : WithTop ℤ) = ((2 : ℤ) : WithTop ℤ) from rfl, WithTop.coe_inj, eq_comm]
    have e3 : ((3 : WithTop ℤ) = (g : WithTop ℤ)) ↔ g = 3 := by
      rw [show (3 : WithTop ℤ) = ((3 : ℤ) : WithTop ℤ) from rfl, WithTop.coe_inj, eq_comm]
    unfold share
    rw [Fin.sum_univ_four]
    simp [exG4, e2, e3]
    split_ifs <;> norm_num
  have h := C250_event coin exG4 (fun _ => 1) [(2, 2), (2, 3), (3, 3)]
    (fun g _ e => (if g = 2 then 4 else 1) + (g : ℝ) * e) (fun _ _ _ _ => 0) (fun g _ => if g = 2 then 4 else 1)
    (fun p _ => ⟨(coin_int _).1, by rw [(coin_int _).2]; ring⟩) none none 0 (by simp [hs]; norm_num) (by simp [inRange])
  obtain ⟨X, h1, h2, h3⟩ := h
  refine ⟨X, h1, h2, h3.trans ?_⟩
  unfold shareMean
  simp [hs]
  norm_num

end Verif.Ident
