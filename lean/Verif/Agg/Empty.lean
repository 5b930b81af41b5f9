import Verif.Agg.Props3

set_option linter.unusedSectionVars false

/-! # C76: aggregates of no cells -/

namespace Verif.Agg

variable {ι K : Type*} [Fintype ι] [Field K] [DecidableEq K]

/-- **C76, group, dynamic, calendar.** A number reported for a cohort, an event time or a period combines at least one
cell. -/
theorem C76_effects_need_cells (G : ι → WithTop ℤ) (w : ι → K) (minE maxE : Option ℤ) (cs : List (Cell ι K)) :
    (∀ x ∈ (groupAgg G w none cs).effects, x.att.isSome → ∃ c ∈ cs, c.g = x.label ∧ x.label ≤ c.t) ∧
    (∀ x ∈ (dynamicAgg G w none minE maxE cs).effects, x.att.isSome → ∃ c ∈ cs, c.t - c.g = x.label) ∧
    (∀ x ∈ (calendarAgg G w cs).effects, x.att.isSome → ∃ c ∈ cs, c.t = x.label ∧ c.g ≤ x.label) := by
  refine ⟨fun x hx hs => ?_, fun x hx _ => ?_, fun x hx hs => ?_⟩
  · by_contra hc
    rw [((C32_group G w cs).2.2 x hx).1 hc] at hs; simp at hs
  · exact (((C32_dynamic G w minE maxE cs).2.1 _).1 (List.mem_map_of_mem hx)).1
  · by_contra hc
    rw [((C32_calendar G w cs).2.2 x hx).1 hc] at hs; simp at hs

/-- Overall effects of dynamic and calendar aggregation are NaN when nothing is combined. -/
theorem C76_overall_need_cells (G : ι → WithTop ℤ) (w : ι → K) (minE maxE : Option ℤ) (cs : List (Cell ι K)) :
    ((∀ c ∈ cs, c.t < c.g) → (dynamicAgg G w none minE maxE cs).overall = none ∧
      (calendarAgg G w cs).overall = none) := by
  intro h
  constructor
  · have : (dynamicAgg G w none minE maxE cs).effects.filter (fun x => decide (0 ≤ x.label)) = [] := by
      rw [List.filter_eq_nil_iff]
      intro x hx hl
      obtain ⟨c, hc, he⟩ := (((C32_dynamic G w minE maxE cs).2.1 _).1 (List.mem_map_of_mem hx)).1
      have := h c hc
      simp only [decide_eq_true_eq] at hl
      omega
    have e : (dynamicAgg G w none minE maxE cs).overall =
        if ((dynamicAgg G w none minE maxE cs).effects.filter fun x => decide (0 ≤ x.label)).isEmpty then none else
          nanMean (((dynamicAgg G w none minE maxE cs).effects.filter fun x => decide (0 ≤ x.label)).map Eff.att) := rfl
    rw [e, this]; rfl
  · have e : (calendarAgg G w cs).overall = nanMean ((calendarAgg G w cs).effects.map Eff.att) := rfl
    have : ((calendarAgg G w cs).effects.map Eff.att).filterMap id = [] := by
      rw [List.filterMap_eq_nil_iff]
      intro a ha
      obtain ⟨x, hx, rfl⟩ := List.mem_map.1 ha
      rw [((C32_calendar G w cs).2.2 x hx).1]; · rfl
      rintro ⟨c, hc, h1, h2⟩
      have := h c hc
      omega
    rw [e]
    unfold nanMean
    simp only [this]; rfl

/-- **C76 fails for simple aggregation.** If no cell is post-treatment the overall effect is reported as `0`. -/
theorem C76_simple_violated (G : ι → WithTop ℤ) (w : ι → K) (cs : List (Cell ι K)) (h : ∀ c ∈ cs, c.t < c.g) :
    (simpleAgg G w none cs).1 = some 0 := by
  unfold simpleAgg
  simp only
  rw [recode_filter G w cs _ post (fun c hc => by rw [isPost_eq G w none cs c hc]; simp)]
  have : cs.filter post = [] := by
    rw [List.filter_eq_nil_iff]
    intro c hc hp
    have := h c hc
    simp only [post, decide_eq_true_eq] at hp
    omega
  rw [this]
  simp [combine]

example : ∀ c ∈ ([⟨2006, 2005, 3, fun _ => 1⟩, ⟨2007, 2005, 4, fun _ => 2⟩] : List (Cell (Fin 2) ℚ)), c.t < c.g := by
  decide

end Verif.Agg
