import Verif.Asym.DddAgg
import Verif.Triple.AggLabels

set_option linter.unusedSectionVars false
set_option linter.unusedSimpArgs false

/-!
# C286: the overall event-study and calendar effects of `agg_ddd` in large samples
-/

namespace Verif.Asym

open MeasureTheory ProbabilityTheory Filter Topology Verif.Honest Verif.DR Verif.Triple

variable {Ω 𝓧 : Type*} [MeasurableSpace Ω] [MeasurableSpace 𝓧]

section
variable {P : Measure Ω} [IsProbabilityMeasure P] {X : ℕ → Ω → 𝓧} (hX : Sampling P X) {G : 𝓧 → WithTop ℤ} {F : ℤ × ℤ → ℕ → Ω → Option ℝ}
  {I : ℤ × ℤ → (n : ℕ) → Ω → Fin n → ℝ} {θ : ℤ × ℤ → ℝ} {H : ℤ × ℤ → ℕ → Set Ω} {ψ : ℤ × ℤ → 𝓧 → ℝ} {D : List (ℤ × ℤ)} {gl tl : List ℤ}
include hX

/-- Plain means of share-weighted means over lists of cells. -/
theorem mean_mixed (ls : List ℤ) (q : ℤ → ℤ × ℤ → Bool) (hC : ∀ l ∈ ls, ∀ c ∈ D.filter (q l), CellFit P X G each F I θ H ψ c) (hD : ∀ l ∈ ls, D.filter (q l) ≠ [])
    (rep : (n : ℕ) → Ω → Option (ℝ × (Fin n → ℝ)))
    (hr : ∀ n, ∀ ω, (∀ l ∈ ls, ω ∈ wGood (D.filter (q l)) Prod.fst G each X H n) → rep n ω =
      some (Agg.plainMean (ls.map fun l => wEst (D.filter (q l)) Prod.fst G each X (gEst F) n ω),
        fun i => Agg.plainMean (ls.map fun l => bareInf (D.filter (q l)) Prod.fst G each X I n ω i))) :
    InferenceWith P X rep (Agg.plainMean (ls.map fun l => shareMean P X G each Prod.fst θ (D.filter (q l))))
      (fun z => Agg.plainMean (ls.map fun l => shareInfluence P X G each Prod.fst θ ψ (D.filter (q l)) z))
      fun z => Agg.plainMean (ls.map fun l => itemInfluence P X G each Prod.fst ψ (D.filter (q l)) z) := by
  have hb : ∀ l ∈ ls, ∃ est', Regular P X est' (bareInf (D.filter (q l)) Prod.fst G each X I) 0 (wGood (D.filter (q l)) Prod.fst G each X H)
      (itemInfluence P X G each Prod.fst ψ (D.filter (q l))) := fun l hl =>
    bare_regular hX (fun c hc => (hC l hl c hc).regular) (fun c hc => (hC l hl c hc).sq) (fun c hc => (hC l hl c hc).cohort) (hD l hl)
  choose! est' h' using hb
  exact (list_regular hX fun l hl => genq_regular hX (hC l hl) (hD l hl)).mixed hX
    (list_regular hX (θ := fun _ => 0) h') rep fun n ω hω _ => hr n ω fun l hl =>
      list_mem (H := fun l => wGood (D.filter (q l)) Prod.fst G each X H) hω l hl

/-- **Generic (overall event-study effect).**  `evs` are the event times from 0 on that the cells cover within the requested range. -/
theorem d_event_overall (hd : InData D gl tl) (evs : List ℤ) {minE maxE : Option ℤ} (hev : evs.Pairwise (· < ·))
    (hmem : ∀ e, e ∈ evs ↔ 0 ≤ e ∧ (∃ c ∈ D, c.2 - c.1 = e) ∧ Agg.inRange minE maxE e) (hne : evs ≠ [])
    (hC : ∀ e ∈ evs, ∀ c ∈ eventCells D e, CellFit P X G each F I θ H ψ c) :
    InferenceWith P X (fun n ω => repOf (dEvent minE maxE (dTable G F I D gl tl X n ω)).overall (dEvent minE maxE (dTable G F I D gl tl X n ω)).overallPsi)
      (Agg.plainMean (evs.map fun e => shareMean P X G each Prod.fst θ (eventCells D e)))
      (fun z => Agg.plainMean (evs.map fun e => shareInfluence P X G each Prod.fst θ ψ (eventCells D e) z))
      fun z => Agg.plainMean (evs.map fun e => itemInfluence P X G each Prod.fst ψ (eventCells D e) z) := by
  have hD : ∀ e ∈ evs, eventCells D e ≠ [] := fun e he => by
    obtain ⟨c, hc, hce⟩ := ((hmem e).1 he).2.1
    exact List.ne_nil_of_mem (List.mem_filter.2 ⟨hc, by simpa using hce⟩)
  refine mean_mixed hX evs (fun e c => decide (c.2 - c.1 = e)) hC hD _ fun n ω hg => ?_
  have hf : ∀ e ∈ evs, _ := fun e he => d_event_facts hX hd (hC e he) (hD e he) ((hmem e).1 he).2.2 (hg e he)
  obtain ⟨h3, h4⟩ := C54_event_times (dTable G F I D gl tl X n ω) minE maxE
  have hlab : ∀ r ∈ (dEvent minE maxE (dTable G F I D gl tl X n ω)).effects, 0 ≤ r.label → r.label ∈ evs := by
    intro r hr h0
    obtain ⟨⟨v, hv, hve⟩, hrange⟩ := (h4 r.label).1 (List.mem_map_of_mem hr)
    exact (hmem _).2 ⟨h0, ⟨_, gen_table_mem hv, hve⟩, hrange⟩
  have hrows : (dEvent minE maxE (dTable G F I D gl tl X n ω)).effects.filter (fun x => decide (0 ≤ x.label)) =
      evs.map fun e => ⟨e, some (wEst (eventCells D e) Prod.fst G each X (gEst F) n ω), bareInf (eventCells D e) Prod.fst G each X I n ω⟩ := by
    refine rows_eq ?_ hev (fun r hr => ?_) (fun l hl => ?_) fun r hr => ?_
    · exact List.Pairwise.map _ (fun _ _ h => h) ((List.pairwise_map.1 h3).filter _)
    · obtain ⟨hr, h0⟩ := List.mem_filter.1 hr
      exact hlab r hr (by simpa using h0)
    · obtain ⟨r, hr, rfl⟩ := (hf l hl).1
      exact ⟨r, List.mem_filter.2 ⟨hr, by simpa using ((hmem _).1 hl).1⟩, rfl⟩
    · obtain ⟨hr, h0⟩ := List.mem_filter.1 hr
      exact (hf r.label (hlab r hr (by simpa using h0))).2 r hr rfl
  obtain ⟨E, hE⟩ : ∃ E, E = dEvent minE maxE (dTable G F I D gl tl X n ω) := ⟨_, rfl⟩
  have hne' : E.effects.filter (fun x => decide (0 ≤ x.label)) ≠ [] := by
    rw [hE, hrows]
    simpa using hne
  obtain ⟨h1, -⟩ := Agg.nanMean_all (l := E.effects.filter fun x => decide (0 ≤ x.label)) (fun x hx => by
    rw [hE, hrows] at hx
    obtain ⟨e, -, rfl⟩ := List.mem_map.1 hx
    rfl) hne'
  have h6 : E.overall = some (Agg.plainMean (Agg.numbers (E.effects.filter fun x => decide (0 ≤ x.label)))) := by
    have : E.overall = if (E.effects.filter fun x => decide (0 ≤ x.label)).isEmpty then none else
        Agg.nanMean ((E.effects.filter fun x => decide (0 ≤ x.label)).map Agg.Eff.att) := by rw [hE]; rfl
    rw [this, if_neg (by rw [List.isEmpty_iff]; exact hne'), h1]
  have h7 : ∀ i, E.overallPsi i = Agg.plainMean ((E.effects.filter fun x => decide (0 ≤ x.label)).map fun x => x.psi i) := by
    intro i
    have : E.overallPsi i = ((E.effects.filter fun x => decide (0 ≤ x.label)).map fun x => x.psi i *
        (1 / ((E.effects.filter fun x => decide (0 ≤ x.label)).length : ℝ))).sum := by rw [hE]; rfl
    rw [this, Agg.sum_mul_list]
    unfold Agg.plainMean
    rw [List.length_map, one_div, div_eq_mul_inv]
  rw [hE, hrows, numbers_rows] at h6
  rw [h6]
  simp only [hE, hrows, List.map_map] at h7
  rw [funext h7]
  rfl

/-- **Generic (overall calendar effect).**  `ts` are the periods of the cells from the first cohort on; each has a post-treatment cell. -/
theorem d_calendar_overall (hd : InData D gl tl) (ts : List ℤ) (hts : ts.Pairwise (· < ·)) (hmem : ∀ t, t ∈ ts ↔ (∃ c ∈ D, c.2 = t) ∧ ∃ c ∈ D, c.1 ≤ t) (hne : ts ≠ [])
    (hD : ∀ t ∈ ts, periodCells D t ≠ []) (hC : ∀ c ∈ postCells D, CellFit P X G each F I θ H ψ c) :
    InferenceWith P X (fun n ω => repOf (dCalendar (dTable G F I D gl tl X n ω)).overall (dCalendar (dTable G F I D gl tl X n ω)).overallPsi)
      (Agg.plainMean (ts.map fun t => shareMean P X G each Prod.fst θ (periodCells D t)))
      (fun z => Agg.plainMean (ts.map fun t => shareInfluence P X G each Prod.fst θ ψ (periodCells D t) z))
      fun z => Agg.plainMean (ts.map fun t => itemInfluence P X G each Prod.fst ψ (periodCells D t) z) := by
  have hC : ∀ t ∈ ts, ∀ c ∈ periodCells D t, CellFit P X G each F I θ H ψ c := fun t _ c hc => by
    obtain ⟨hc, h⟩ := List.mem_filter.1 hc
    simp only [decide_eq_true_eq] at h
    exact hC c (List.mem_filter.2 ⟨hc, by simp only [decide_eq_true_eq]; omega⟩)
  refine mean_mixed hX ts (fun t c => decide (c.2 = t ∧ c.1 ≤ t)) hC hD _ fun n ω hg => ?_
  have hf : ∀ t ∈ ts, _ := fun t ht => d_period_facts hX hd (hC t ht) (hD t ht) (hg t ht)
  obtain ⟨h3, h4⟩ := C54_calendar_periods (dTable G F I D gl tl X n ω) (dTable_labelled hd n ω)
  have hlab : ∀ r ∈ (dCalendar (dTable G F I D gl tl X n ω)).effects, r.label ∈ ts := by
    intro r hr
    obtain ⟨⟨v, hv, hve⟩, v', hv', h'⟩ := (h4 r.label).1 (List.mem_map_of_mem hr)
    exact (hmem _).2 ⟨⟨_, gen_table_mem hv, hve⟩, _, gen_table_mem hv', h'⟩
  have hrows : (dCalendar (dTable G F I D gl tl X n ω)).effects =
      ts.map fun t => ⟨t, some (wEst (periodCells D t) Prod.fst G each X (gEst F) n ω), bareInf (periodCells D t) Prod.fst G each X I n ω⟩ :=
    rows_eq h3 hts hlab (fun l hl => (hf l hl).1) fun r hr => (hf r.label (hlab r hr)).2 r hr rfl
  obtain ⟨h6, -, h7⟩ := C54_calendar_overall (dTable G F I D gl tl X n ω) (fun r hr => by rw [((hf r.label (hlab r hr)).2 r hr rfl).1]; rfl) (by rw [hrows]; simpa using hne)
  rw [hrows, numbers_rows] at h6
  rw [h6]
  simp only [hrows, List.map_map] at h7
  rw [funext h7]
  rfl

end

/-! ## Variance -/

section
variable {P : Measure Ω} [IsProbabilityMeasure P] {X : ℕ → Ω → 𝓧} {G : 𝓧 → WithTop ℤ} {θ : ℤ × ℤ → ℝ} {ψ : ℤ × ℤ → 𝓧 → ℝ}

theorem plainMean_fin {α : Type*} (L : List α) (f : α → ℝ) : Agg.plainMean (L.map f) = ∑ k : Fin L.length, (1 : ℝ) / L.length * f L[k.1] := by
  unfold Agg.plainMean
  rw [← Finset.mul_sum, Fin.sum_univ_fun_getElem L f, List.length_map, one_div, div_eq_inv_mul]

theorem item_fin (L : List (ℤ × ℤ)) : itemInfluence P X G each Prod.fst ψ L = fun z => ∑ k : Fin L.length, popShare P X G each L[k.1].1 /
    (L.map fun c => popShare P X G each (c.1)).sum * ψ L[k.1] z := by
  funext z
  unfold itemInfluence
  rw [← Fin.sum_univ_fun_getElem L fun c => popShare P X G each c.1 * ψ c z, Finset.sum_div]
  exact Finset.sum_congr rfl fun k _ => by ring

theorem only_fin (L : List (ℤ × ℤ)) : shareOnly P X G each Prod.fst θ L = fun z => ∑ k : Fin L.length, (θ L[k.1] - shareMean P X G each Prod.fst θ L) /
    (L.map fun c => popShare P X G each (c.1)).sum * isG G L[k.1].1 z := by
  funext z
  unfold shareOnly
  rw [← Fin.sum_univ_fun_getElem L fun c => each z * isG G c.1 z * (θ c - shareMean P X G each Prod.fst θ L), Finset.sum_div]
  exact Finset.sum_congr rfl fun k _ => by ring

/-- For plain means of share-weighted means the variances through the cells and through the shares add up. -/
theorem var_split_mean (LL : List (List (ℤ × ℤ))) (h1 : ∀ L ∈ LL, ∀ c ∈ L, SqInt P X (ψ c)) (h2 : ∀ L ∈ LL, ∀ c ∈ L, SqInt P X (isG G c.1))
    (h3 : ∀ L ∈ LL, ∀ c ∈ L, ∀ g, pop P X (fun z => ψ c z * isG G g z) = 0) :
    pop P X (fun z => Agg.plainMean (LL.map fun L => shareInfluence P X G each Prod.fst θ ψ L z) ^ 2) =
      pop P X (fun z => Agg.plainMean (LL.map fun L => itemInfluence P X G each Prod.fst ψ L z) ^ 2) +
      pop P X fun z => Agg.plainMean (LL.map fun L => shareOnly P X G each Prod.fst θ L z) ^ 2 := by
  have s1 : ∀ k : Fin LL.length, SqInt P X (itemInfluence P X G each Prod.fst ψ LL[k.1]) := fun k => by
    rw [item_fin]
    exact sq_comb _ fun j => h1 _ (List.getElem_mem k.2) _ (List.getElem_mem j.2)
  have s2 : ∀ k : Fin LL.length, SqInt P X (shareOnly P X G each Prod.fst θ LL[k.1]) := fun k => by
    rw [only_fin]
    exact sq_comb _ fun j => h2 _ (List.getElem_mem k.2) _ (List.getElem_mem j.2)
  simp only [plainMean_fin, share_split, mul_add, Finset.sum_add_distrib]
  refine pop_pyth (sq_comb _ s1) (sq_comb _ s2) (pop_orth _ _ s1 s2 fun j k => ?_)
  rw [item_fin, only_fin]
  exact pop_orth _ _ (fun i => h1 _ (List.getElem_mem j.2) _ (List.getElem_mem i.2)) (fun i => h2 _ (List.getElem_mem k.2) _ (List.getElem_mem i.2))
    fun i l => h3 _ (List.getElem_mem j.2) _ (List.getElem_mem i.2) _

end

/-! ## C286 -/

section
variable {P : Measure Ω} [IsProbabilityMeasure P] {X : ℕ → Ω → 𝓧} (hX : Sampling P X) {G : 𝓧 → WithTop ℤ} {E : 𝓧 → Bool} {y u : ℤ → 𝓧 → ℝ} {level : ℝ} {bs : ℤ × ℤ → ℤ}
  (hess : ∀ g, HessFam G E g X) (m : Est) {hi : ℝ} (hi0 : 0 < hi) (hi1 : hi < 1) {D : List (ℤ × ℤ)} {gl tl : List ℤ} (hd : InData D gl tl)
include hX hi0 hi1 hd

/-- **C286 (overall event-study effect).**  With probability one it tends to the plain mean, over the event times from 0 on that the cells cover within the requested range, of
the share-weighted effects on eligible units; its standard error reflects the influence through the cells only. -/
theorem C286_event (evs : List ℤ) {minE maxE : Option ℤ} (hev : evs.Pairwise (· < ·)) (hmem : ∀ e, e ∈ evs ↔ 0 ≤ e ∧ (∃ c ∈ D, c.2 - c.1 = e) ∧ Agg.inRange minE maxE e)
    (hne : evs ≠ []) (hC : ∀ e ∈ evs, ∀ c ∈ eventCells D e, TripleCell P X G E y u level c.1 c.2 (bs c)) :
    InferenceWith P X (fun n ω => repOf (dEvent minE maxE (tripleTable G E y bs X hess m hi level D gl tl n ω)).overall
        (dEvent minE maxE (tripleTable G E y bs X hess m hi level D gl tl n ω)).overallPsi)
      (Agg.plainMean (evs.map fun e => shareMean P X G each Prod.fst (fun c => eligibleATT P X G E y u c.1 c.2) (eventCells D e)))
      (fun z => Agg.plainMean (evs.map fun e => shareInfluence P X G each Prod.fst (fun c => eligibleATT P X G E y u c.1 c.2)
        (fun c => tripleCellInfluence P X G E y c.1 c.2 (bs c)) (eventCells D e) z))
      fun z => Agg.plainMean (evs.map fun e => itemInfluence P X G each Prod.fst (fun c => tripleCellInfluence P X G E y c.1 c.2 (bs c)) (eventCells D e) z) :=
  d_event_overall hX hd evs hev hmem hne fun e he c hc => triple_fit hX hess m hi0 hi1 (hC e he c hc)

/-- **C286 (overall calendar effect).**  The same for the plain mean over the periods from the first cohort on, if each has a post-treatment cell. -/
theorem C286_calendar (ts : List ℤ) (hts : ts.Pairwise (· < ·)) (hmem : ∀ t, t ∈ ts ↔ (∃ c ∈ D, c.2 = t) ∧ ∃ c ∈ D, c.1 ≤ t) (hne : ts ≠ [])
    (hD : ∀ t ∈ ts, periodCells D t ≠ []) (hC : ∀ c ∈ postCells D, TripleCell P X G E y u level c.1 c.2 (bs c)) :
    InferenceWith P X (fun n ω => repOf (dCalendar (tripleTable G E y bs X hess m hi level D gl tl n ω)).overall
        (dCalendar (tripleTable G E y bs X hess m hi level D gl tl n ω)).overallPsi)
      (Agg.plainMean (ts.map fun t => shareMean P X G each Prod.fst (fun c => eligibleATT P X G E y u c.1 c.2) (periodCells D t)))
      (fun z => Agg.plainMean (ts.map fun t => shareInfluence P X G each Prod.fst (fun c => eligibleATT P X G E y u c.1 c.2)
        (fun c => tripleCellInfluence P X G E y c.1 c.2 (bs c)) (periodCells D t) z))
      fun z => Agg.plainMean (ts.map fun t => itemInfluence P X G each Prod.fst (fun c => tripleCellInfluence P X G E y c.1 c.2 (bs c)) (periodCells D t) z) :=
  d_calendar_overall hX hd ts hts hmem hne hD fun c hc => triple_fit hX hess m hi0 hi1 (hC c hc)

omit hi0 hi1 hd in
/-- **C286 (variance).**  For both, the variance of the estimate is the one the standard error reflects plus that of the cohort shares. -/
theorem C286_variance (LL : List (List (ℤ × ℤ))) (hC : ∀ L ∈ LL, ∀ c ∈ L, TripleCell P X G E y u level c.1 c.2 (bs c)) :
    pop P X (fun z => Agg.plainMean (LL.map fun L => shareInfluence P X G each Prod.fst (fun c => eligibleATT P X G E y u c.1 c.2)
        (fun c => tripleCellInfluence P X G E y c.1 c.2 (bs c)) L z) ^ 2) =
      pop P X (fun z => Agg.plainMean (LL.map fun L => itemInfluence P X G each Prod.fst (fun c => tripleCellInfluence P X G E y c.1 c.2 (bs c)) L z) ^ 2) +
      pop P X fun z => Agg.plainMean (LL.map fun L => shareOnly P X G each Prod.fst (fun c => eligibleATT P X G E y u c.1 c.2) L z) ^ 2 :=
  var_split_mean LL (fun L hL c hc => (triple_regular hX (hC L hL c hc) (fun _ _ _ _ _ _ => 0) .reg (hi := 1 / 2) (by norm_num) (by norm_num)).sq)
    (fun L hL c hc => cohort_sq hX (hC L hL c hc) c.1) fun L hL c hc g => triple_orth hX (hC L hL c hc) g

/-- **C286 (violated: coverage).**  Whenever the estimated shares contribute to the variance of the overall event-study effect, the coverage of its interval tends to a number
below `1 - alpha`. -/
theorem C286_coverage_violated (evs : List ℤ) {minE maxE : Option ℤ} (hev : evs.Pairwise (· < ·))
    (hmem : ∀ e, e ∈ evs ↔ 0 ≤ e ∧ (∃ c ∈ D, c.2 - c.1 = e) ∧ Agg.inRange minE maxE e)
    (hne : evs ≠ []) (hC : ∀ e ∈ evs, ∀ c ∈ eventCells D e, TripleCell P X G E y u level c.1 c.2 (bs c))
    (hs : 0 < pop P X fun z => Agg.plainMean (evs.map fun e => shareOnly P X G each Prod.fst (fun c => eligibleATT P X G E y u c.1 c.2) (eventCells D e) z) ^ 2)
    (hv : 0 < pop P X fun z => Agg.plainMean (evs.map fun e => itemInfluence P X G each Prod.fst (fun c => tripleCellInfluence P X G E y c.1 c.2 (bs c)) (eventCells D e) z) ^ 2)
    (alpha : ℝ) (ha0 : 0 < alpha) (ha1 : alpha < 1) :
    ∃ l < 1 - alpha, Tendsto (fun n => P.real {ω | ∃ att psi, repOf (dEvent minE maxE (tripleTable G E y bs X hess m hi level D gl tl n ω)).overall
        (dEvent minE maxE (tripleTable G E y bs X hess m hi level D gl tl n ω)).overallPsi = some (att, psi) ∧
      (Report.rowInterval (Report.zcrit alpha) att (plainSe psi)).1 ≤
        Agg.plainMean (evs.map fun e => shareMean P X G each Prod.fst (fun c => eligibleATT P X G E y u c.1 c.2) (eventCells D e)) ∧
      Agg.plainMean (evs.map fun e => shareMean P X G each Prod.fst (fun c => eligibleATT P X G E y u c.1 c.2) (eventCells D e)) ≤
        (Report.rowInterval (Report.zcrit alpha) att (plainSe psi)).2}) atTop (𝓝 l) := by
  refine (C286_event hX hess m hi0 hi1 hd evs hev hmem hne hC).under hs ?_ hv alpha ha0 ha1
  have := C286_variance hX (y := y) (u := u) (bs := bs) (level := level) (evs.map (eventCells D)) (by
    intro L hL
    obtain ⟨e, he, rfl⟩ := List.mem_map.1 hL
    exact hC e he)
  simpa only [List.map_map, Function.comp_def] using this

end

/-! ## Non-vacuity: the overall event-study effect of `Crews`, event times 0 and 1 -/

theorem crew_one : eventCells crewCells 1 = [(2, 3)] := by decide

/-- The coverage of the overall event-study effect falls short of `1 - alpha` for every `alpha`, with the default method, cap and trimming level. -/
example (hess : ∀ g, HessFam cwG cwE g (draw (𝓧 := Crews))) (alpha : ℝ) (ha0 : 0 < alpha) (ha1 : alpha < 1) :
    ∃ l < 1 - alpha, Tendsto (fun n => (draws Crews).real {ω | ∃ att psi,
      repOf (dEvent none none (tripleTable cwG cwE cwY (fun c => c.1 - 1) draw hess .dr (1 - 1 / 10 ^ 6) (995 / 1000) crewCells [2, 3] [1, 2, 3] n ω)).overall
        (dEvent none none (tripleTable cwG cwE cwY (fun c => c.1 - 1) draw hess .dr (1 - 1 / 10 ^ 6) (995 / 1000) crewCells [2, 3] [1, 2, 3] n ω)).overallPsi = some (att, psi) ∧
      (Report.rowInterval (Report.zcrit alpha) att (plainSe psi)).1 ≤
        Agg.plainMean ([0, 1].map fun e => shareMean (draws Crews) draw cwG each Prod.fst (fun c => eligibleATT (draws Crews) draw cwG cwE cwY cwU c.1 c.2) (eventCells crewCells e)) ∧
      Agg.plainMean ([0, 1].map fun e => shareMean (draws Crews) draw cwG each Prod.fst (fun c => eligibleATT (draws Crews) draw cwG cwE cwY cwU c.1 c.2) (eventCells crewCells e)) ≤
        (Report.rowInterval (Report.zcrit alpha) att (plainSe psi)).2}) atTop (𝓝 l) := by
  have hsh : ∀ g : ℤ, g = 2 ∨ g = 3 → 0 < popShare (draws Crews) draw cwG each g := by
    rintro g (rfl | rfl)
    exacts [cohort_pos draws_sampling (cw_ok 2 2 1 (by simp)), cohort_pos draws_sampling (cw_ok 3 3 2 (by simp))]
  have hok : ∀ e : ℤ, ∀ c ∈ eventCells crewCells e, TripleCell (draws Crews) draw cwG cwE cwY cwU (995 / 1000) c.1 c.2 (c.1 - 1) :=
    fun e c hc => crew_ok c (List.mem_filter.1 hc).1
  refine C286_coverage_violated draws_sampling hess .dr (by norm_num) (by norm_num) crew_data [0, 1] (by decide) (fun e => ?_) (by simp) (fun e _ => hok e) ?_ ?_ alpha ha0 ha1
  · simp only [crewCells, List.mem_cons, List.not_mem_nil, or_false, exists_eq_or_imp, exists_eq_left, Agg.inRange]
    constructor
    · rintro (rfl | rfl) <;> simp
    · rintro ⟨h0, h, -⟩
      omega
  · have h1 : ∀ z, shareOnly (draws Crews) draw cwG each Prod.fst (fun c => eligibleATT (draws Crews) draw cwG cwE cwY cwU c.1 c.2) (eventCells crewCells 1) z = 0 := fun z => by
      rw [crew_one]
      unfold shareOnly shareMean
      simp only [List.map_cons, List.map_nil, List.sum_cons, List.sum_nil, add_zero]
      rw [mul_div_cancel_left₀ _ (hsh 2 (.inl rfl)).ne']
      simp
    have h0 := share_pos (P := draws Crews) (X := draw) (G := cwG) (L := eventCells crewCells 0) (θ := fun c => eligibleATT (draws Crews) draw cwG cwE cwY cwU c.1 c.2)
      (fun c hc => cohort_sq draws_sampling (hok 0 c hc) c.1) (fun c hc => cohort_pos draws_sampling (hok 0 c hc)) (by decide) (c := (2, 2)) (c' := (3, 3))
      (by rw [crew_zero]; simp) (by rw [crew_zero]; simp) (by
        rw [cw_att 2 2 (.inl rfl) le_rfl, cw_att 3 3 (.inr rfl) le_rfl]
        norm_num)
    have e : (fun z => Agg.plainMean ([0, 1].map fun e => shareOnly (draws Crews) draw cwG each Prod.fst (fun c => eligibleATT (draws Crews) draw cwG cwE cwY cwU c.1 c.2)
        (eventCells crewCells e) z) ^ 2) = fun z => 1 / 4 * shareOnly (draws Crews) draw cwG each Prod.fst (fun c => eligibleATT (draws Crews) draw cwG cwE cwY cwU c.1 c.2)
        (eventCells crewCells 0) z ^ 2 := by
      funext z
      simp only [List.map_cons, List.map_nil, h1]
      unfold Agg.plainMean
      simp only [List.sum_cons, List.sum_nil, List.length_cons, List.length_nil]
      push_cast
      ring
    rw [e]
    unfold pop
    rw [integral_const_mul]
    exact mul_pos (by norm_num) h0
  · have c2 : ∀ j p, cwG (2, j, p) = ⊤ := fun _ _ => rfl
    have h1 : ∀ g : ℤ, g = 2 ∨ g = 3 → ∀ t, g ≤ t → t ≤ 3 → 0 < tripleCellInfluence (draws Crews) draw cwG cwE cwY g t (g - 1) (2, true, false) := by
      intro g hg t h1 h2
      unfold tripleCellInfluence wMean
      simp only [cw_pop, (cw_arm _ _ _ _ g hg).1, (cw_arm _ _ _ _ g hg).2]
      rcases hg with rfl | rfl <;> interval_cases t <;> simp [stStart, cwY, cwU, num, cwE, c2] <;> norm_num
    have h : 0 < Agg.plainMean ([0, 1].map fun e => itemInfluence (draws Crews) draw cwG each Prod.fst
        (fun c => tripleCellInfluence (draws Crews) draw cwG cwE cwY c.1 c.2 (c.1 - 1)) (eventCells crewCells e) (2, true, false)) := by
      simp only [List.map_cons, List.map_nil, crew_zero, crew_one]
      unfold Agg.plainMean itemInfluence
      simp only [List.map_cons, List.map_nil, List.sum_cons, List.sum_nil, add_zero, List.length_cons, List.length_nil]
      have a2 := h1 2 (.inl rfl) 2 le_rfl (by norm_num)
      have a2' := h1 2 (.inl rfl) 3 (by norm_num) (by norm_num)
      have a3 := h1 3 (.inr rfl) 3 le_rfl (by norm_num)
      have b2 := hsh 2 (.inl rfl)
      have b3 := hsh 3 (.inr rfl)
      push_cast
      positivity
    rw [cw_pop]
    have := pow_pos h 2
    positivity

end Verif.Asym
