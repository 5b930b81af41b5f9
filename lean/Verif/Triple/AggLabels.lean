import Verif.Triple.AggProps
import Verif.Agg.Props2

/-!
# Aggregation of triple differences: which effects are reported and averaged (C54), and whose influence values they use (C51)
-/

set_option linter.unusedSectionVars false
set_option linter.unusedSimpArgs false

namespace Verif.Triple

open Verif.Agg (Cell Eff plainMean numbers inRange)

variable {ι K : Type*} [Fintype ι] [Field K] [LinearOrder K] [IsStrictOrderedRing K]

lemma dEff_label (d : DIn ι K) (l : ℤ) (kept : List (Cell ι K)) : (dEff d l kept).label = l := by
  unfold dEff; split_ifs <;> rfl

/-- **C54 (event times).** The event study reports exactly the differences period minus cohort of the cells between the
two optional bounds, in increasing order. -/
theorem C54_event_times (d : DIn ι K) (minE maxE : Option ℤ) :
    ((dEvent minE maxE d).effects.map Eff.label).Pairwise (· < ·) ∧
    ∀ e, e ∈ (dEvent minE maxE d).effects.map Eff.label ↔ (∃ c ∈ d.cells, c.t - c.g = e) ∧ inRange minE maxE e := by
  have hl : (dEvent minE maxE d).effects.map Eff.label =
      (Agg.uniqueSorted (d.cells.map fun c => c.t - c.g)).filter fun e => Agg.aboveMin minE e && Agg.belowMax maxE e := by
    unfold dEvent
    simp only [List.map_map]
    conv_rhs => rw [← List.map_id (List.filter _ _)]
    exact List.map_congr_left fun e _ => dEff_label d e _
  rw [hl]
  refine ⟨(Agg.uniqueSorted_pairwise _).filter _, fun e => ?_⟩
  rw [List.mem_filter, Agg.rangeFilter, Agg.mem_uniqueSorted, List.mem_map]

/-- **C54 (event study, overall).** If no effect is missing, the overall effect is the plain mean of the effects at
non-negative event times (zero included) and its influence values are the plain means of theirs. -/
theorem C54_event_overall (d : DIn ι K) (minE maxE : Option ℤ)
    (hsome : ∀ x ∈ (dEvent minE maxE d).effects, x.att.isSome = true)
    (hne : ∃ x ∈ (dEvent minE maxE d).effects, 0 ≤ x.label) :
    let posts := (dEvent minE maxE d).effects.filter fun x => decide (0 ≤ x.label)
    (dEvent minE maxE d).overall = some (plainMean (numbers posts)) ∧ (numbers posts).length = posts.length ∧
      ∀ i, (dEvent minE maxE d).overallPsi i = plainMean (posts.map fun x => x.psi i) := by
  intro posts
  have hp : posts ≠ [] := by
    obtain ⟨x, hx, h⟩ := hne
    exact List.ne_nil_of_mem (List.mem_filter.2 ⟨hx, by simpa using h⟩)
  obtain ⟨h1, h2⟩ := Agg.nanMean_all (l := posts) (fun x hx => hsome x (List.mem_filter.1 hx).1) hp
  refine ⟨?_, h2, ?_⟩
  · have : (dEvent minE maxE d).overall = if posts.isEmpty then none else Agg.nanMean (posts.map Eff.att) := rfl
    rw [this, if_neg (by rw [List.isEmpty_iff]; exact hp), h1]
  · intro i
    have : (dEvent minE maxE d).overallPsi i = (posts.map fun x => x.psi i * (1 / (posts.length : K))).sum := rfl
    rw [this, Agg.sum_mul_list]
    unfold plainMean
    rw [List.length_map, one_div, div_eq_mul_inv]

/-- **C54 (calendar periods).** The periods reported are exactly the periods of cells not before the earliest cohort of
the cells, in increasing order. -/
theorem C54_calendar_periods (d : DIn ι K) (hd : Labelled d) :
    ((dCalendar d).effects.map Eff.label).Pairwise (· < ·) ∧
    ∀ t, t ∈ (dCalendar d).effects.map Eff.label ↔ (∃ c ∈ d.cells, c.t = t) ∧ ∃ c ∈ d.cells, c.g ≤ t := by
  have hs := dLookup_pairwise d
  have ht : ∀ c ∈ d.cells, c.t ∈ dLookup d := fun c hc => (mem_dLookup d _).2 (.inl (hd.t c hc))
  have hg : ∀ c ∈ d.cells, c.g ∈ dLookup d := fun c hc => (mem_dLookup d _).2 (.inr (hd.g c hc))
  set minG := ((d.cells.map fun c => Agg.code (dLookup d) c.g).min?).getD 0 with hminG
  set calT := ((Agg.uniqueSorted (d.cells.map fun c => (Agg.code (dLookup d) c.t : ℤ))).map Int.toNat).filter
    (fun t => decide (minG ≤ t)) with hcalT
  have hmemT : ∀ n, n ∈ calT ↔ (∃ c ∈ d.cells, Agg.code (dLookup d) c.t = n) ∧ minG ≤ n := by
    intro n
    rw [hcalT]
    simp only [List.mem_filter, List.mem_map, Agg.mem_uniqueSorted, decide_eq_true_eq]
    constructor
    · rintro ⟨⟨z, ⟨c, hc, rfl⟩, rfl⟩, h⟩
      exact ⟨⟨c, hc, by simp⟩, h⟩
    · rintro ⟨⟨c, hc, rfl⟩, h⟩
      exact ⟨⟨_, ⟨c, hc, rfl⟩, by simp⟩, h⟩
  have hmin : ∀ t, t ∈ dLookup d → d.cells ≠ [] → (minG ≤ Agg.code (dLookup d) t ↔ ∃ c ∈ d.cells, c.g ≤ t) := by
    intro t ht hne
    rw [hminG]
    cases hm : (d.cells.map fun c => Agg.code (dLookup d) c.g).min? with
    | none => rw [List.min?_eq_none_iff, List.map_eq_nil_iff] at hm; exact absurd hm hne
    | some m =>
      obtain ⟨h1, h2⟩ := Agg.foldr_min_mem _ _ hm
      simp only [Option.getD_some]
      obtain ⟨c, hc, rfl⟩ := List.mem_map.1 h1
      constructor
      · intro h; exact ⟨c, hc, (Agg.code_le hs (hg c hc) ht).1 h⟩
      · rintro ⟨c', hc', h⟩
        exact (h2 _ (List.mem_map.2 ⟨c', hc', rfl⟩)).trans ((Agg.code_le hs (hg c' hc') ht).2 h)
  have hdec : ∀ n ∈ calT, ∃ c ∈ d.cells, Agg.t2orig (dLookup d) n = c.t ∧ n = Agg.code (dLookup d) c.t := by
    intro n hn
    obtain ⟨⟨c, hc, rfl⟩, _⟩ := (hmemT n).1 hn
    exact ⟨c, hc, Agg.t2orig_code hs (ht c hc), rfl⟩
  have hlab : (dCalendar d).effects.map Eff.label = calT.map (Agg.t2orig (dLookup d)) := by
    unfold dCalendar
    simp only [List.map_map]
    apply List.map_congr_left
    intro t _
    simp only [Function.comp, dEff_label]
  constructor
  · rw [hlab, List.pairwise_map]
    have hp : calT.Pairwise (· < ·) := by
      rw [hcalT]
      apply List.Pairwise.filter
      rw [List.pairwise_map]
      refine (Agg.uniqueSorted_pairwise _).imp_of_mem ?_
      intro a b ha hb hab
      rw [Agg.mem_uniqueSorted, List.mem_map] at ha hb
      obtain ⟨_, _, rfl⟩ := ha
      obtain ⟨_, _, rfl⟩ := hb
      simpa using hab
    refine hp.imp_of_mem ?_
    intro a b ha hb hab
    obtain ⟨c, hc, h1, rfl⟩ := hdec a ha
    obtain ⟨c', hc', h2, rfl⟩ := hdec b hb
    rw [h1, h2]
    exact (Agg.code_lt hs (ht c hc) (ht c' hc')).1 hab
  · intro t
    rw [hlab, List.mem_map]
    constructor
    · rintro ⟨n, hn, rfl⟩
      obtain ⟨c, hc, h1, rfl⟩ := hdec n hn
      rw [h1]
      exact ⟨⟨c, hc, rfl⟩, (hmin _ (ht c hc) (List.ne_nil_of_mem hc)).1 ((hmemT _).1 hn).2⟩
    · rintro ⟨⟨c, hc, rfl⟩, h⟩
      refine ⟨Agg.code (dLookup d) c.t, (hmemT _).2 ⟨⟨c, hc, rfl⟩, ?_⟩, Agg.t2orig_code hs (ht c hc)⟩
      exact (hmin _ (ht c hc) (List.ne_nil_of_mem hc)).2 h

/-- **C54 (calendar, overall).** If no period effect is missing, the overall effect is the plain mean of the period
effects and its influence values are the plain means of theirs. -/
theorem C54_calendar_overall (d : DIn ι K) (hsome : ∀ x ∈ (dCalendar d).effects, x.att.isSome = true)
    (hne : (dCalendar d).effects ≠ []) :
    (dCalendar d).overall = some (plainMean (numbers (dCalendar d).effects)) ∧
      (numbers (dCalendar d).effects).length = (dCalendar d).effects.length ∧
      ∀ i, (dCalendar d).overallPsi i = plainMean ((dCalendar d).effects.map fun x => x.psi i) := by
  obtain ⟨h1, h2⟩ := Agg.nanMean_all (l := (dCalendar d).effects) hsome hne
  refine ⟨h1, h2, fun i => ?_⟩
  have : (dCalendar d).overallPsi i =
      ((dCalendar d).effects.map fun x => x.psi i * (1 / ((dCalendar d).effects.length : K))).sum := rfl
  rw [this, Agg.sum_mul_list]
  unfold plainMean
  rw [List.length_map, one_div, div_eq_mul_inv]

/-- **C51 (aggregation reads the right columns).** If no cell that could not be estimated comes before an estimated one,
the aggregation sees, cell by cell, the label and estimate of the run and every unit's influence value in that cell. -/
theorem C51_aggregated_columns (data : List (Row K)) (results : List (Option (CellOut K))) (r : MpResult K)
    (hr : assemble data results = some r)
    (hgap : ∀ i j : ℕ, i < j → results[i]? = some none → results[j]? = some none ∨ results[j]? = none) :
    (toDIn r).cells.length = r.entries.length ∧
    ∀ (k : ℕ) (c : CellOut K) (cell : Cell (Fin r.ids.length) K), r.entries[k]? = some c → (toDIn r).cells[k]? = some cell →
      cell.g = c.g ∧ cell.t = c.t ∧ cell.att = c.att ∧ ∀ i, cell.psi i = ownIF c r.ids[i] := by
  constructor
  · unfold toDIn; simp
  · intro k c cell hk hcell
    unfold toDIn at hcell
    simp only [List.getElem?_map, Option.map_eq_some_iff] at hcell
    obtain ⟨j, hj, rfl⟩ := hcell
    have hjk : (j : ℕ) = k := by
      rw [List.getElem?_eq_some_iff] at hj
      obtain ⟨h1, h2⟩ := hj
      rw [List.getElem_finRange] at h2
      rw [← h2]; simp
    have hc : r.entries[j] = c := by
      subst hjk
      rw [List.getElem?_eq_some_iff] at hk
      exact hk.2
    rw [← C51_aligned_without_gaps data results r hr hgap k c hk |> fun h => (funext h : r.mat k = _)]
    refine ⟨by rw [hc], by rw [hc], by rw [hc], fun i => by rw [hjk]⟩

/-- The run `exData'` (one cohort, all cells estimated), aggregated by event time and calendar period. -/
def exLabels : Option (List (ℤ × Option ℚ) × Option ℚ × List (ℤ × Option ℚ) × Option ℚ) :=
  (dddMp exInv exEst false false exData').map fun r =>
    ((dEvent none none (toDIn r)).effects.map (fun e => (e.label, e.att)), (dEvent none none (toDIn r)).overall,
     (dCalendar (toDIn r)).effects.map (fun e => (e.label, e.att)), (dCalendar (toDIn r)).overall)

set_option synthInstance.maxSize 2000 in
set_option synthInstance.maxHeartbeats 200000 in
example : exLabels = some ([(-1, some 2), (0, some (9 / 2))], some (9 / 2), [(3, some (9 / 2))], some (9 / 2)) := by
  decide +kernel

end Verif.Triple
