import Verif.Asym.Aggte

set_option linter.unusedSectionVars false
set_option linter.unusedSimpArgs false

/-!
# Aggregation by `aggte` of cells of any kind whose estimates are regular, in large samples

The arguments of C260 and C261 for an arbitrary table of cells.
-/

namespace Verif.Asym

open MeasureTheory ProbabilityTheory Filter Topology Verif.Honest Verif.DR Verif.Prep

variable {Ω 𝓧 : Type*} [MeasurableSpace Ω] [MeasurableSpace 𝓧]

/-- The cells handed to `aggte`; a cell that is not estimated is absent (`dropna=True`), `compute_aggte.py:103-138`. -/
noncomputable def genTable (F : ℤ × ℤ → ℕ → Ω → Option ℝ) (I : ℤ × ℤ → (n : ℕ) → Ω → Fin n → ℝ) (D : List (ℤ × ℤ)) (n : ℕ) (ω : Ω) : List (Agg.Cell (Fin n) ℝ) :=
  D.filterMap fun c => (F c n ω).map fun v => ⟨c.1, c.2, v, I c n ω⟩

/-- The estimate of a cell that is estimated. -/
noncomputable def gEst (F : ℤ × ℤ → ℕ → Ω → Option ℝ) (c : ℤ × ℤ) (n : ℕ) (ω : Ω) : ℝ := (F c n ω).getD 0

/-- A cell is estimated on the samples of `H`, regularly, and its cohort has weight. -/
structure CellFit (P : Measure Ω) (X : ℕ → Ω → 𝓧) (G : 𝓧 → WithTop ℤ) (w : 𝓧 → ℝ) (F : ℤ × ℤ → ℕ → Ω → Option ℝ) (I : ℤ × ℤ → (n : ℕ) → Ω → Fin n → ℝ)
    (θ : ℤ × ℤ → ℝ) (H : ℤ × ℤ → ℕ → Set Ω) (ψ : ℤ × ℤ → 𝓧 → ℝ) (c : ℤ × ℤ) : Prop where
  regular : Regular P X (gEst F c) (I c) (θ c) (H c) (ψ c)
  some : ∀ n, ∀ ω ∈ H c n, F c n ω = some (gEst F c n ω)
  nonneg : ∀ z, 0 ≤ w z
  sq : SqInt P X fun z => w z * isG G c.1 z
  cohort : 0 < popShare P X G w c.1

section
variable {P : Measure Ω} [IsProbabilityMeasure P] {X : ℕ → Ω → 𝓧} (hX : Sampling P X) {G : 𝓧 → WithTop ℤ} {w : 𝓧 → ℝ} {F : ℤ × ℤ → ℕ → Ω → Option ℝ}
  {I : ℤ × ℤ → (n : ℕ) → Ω → Fin n → ℝ} {θ : ℤ × ℤ → ℝ} {H : ℤ × ℤ → ℕ → Set Ω} {ψ : ℤ × ℤ → 𝓧 → ℝ} {D : List (ℤ × ℤ)}
include hX

section
variable {q : ℤ × ℤ → Bool} (hC : ∀ c ∈ D.filter q, CellFit P X G w F I θ H ψ c)
include hC

theorem gen_filter {n : ℕ} {ω : Ω} {p : Agg.Cell (Fin n) ℝ → Bool} (hp : ∀ v : Agg.Cell (Fin n) ℝ, p v = q (v.g, v.t))
    (hω : ∀ c ∈ D.filter q, ω ∈ H c n) : (genTable F I D n ω).filter p =
      (D.filter q).map fun c => ⟨c.1, c.2, gEst F c n ω, I c n ω⟩ := by
  refine filterMap_filter D _ _ p q (fun c hc hq => ?_) fun c v hv => ?_
  · have hm := List.mem_filter.2 ⟨hc, hq⟩
    rw [(hC c hm).some n ω (hω c hm)]
    rfl
  · obtain ⟨u, -, rfl⟩ := Option.map_eq_some_iff.1 hv
    exact hp _

theorem gen_mem {n : ℕ} {ω : Ω} {c : ℤ × ℤ} (hc : c ∈ D.filter q) (hω : ω ∈ H c n) :
    ∃ v ∈ genTable F I D n ω, v.g = c.1 ∧ v.t = c.2 :=
  ⟨⟨c.1, c.2, _, I c n ω⟩, List.mem_filterMap.2 ⟨c, (List.mem_filter.1 hc).1, by rw [(hC c hc).some n ω hω]; rfl⟩, rfl, rfl⟩

theorem genq_regular (hD : D.filter q ≠ []) : Regular P X (wEst (D.filter q) Prod.fst G w X (gEst F))
    (wInf (D.filter q) Prod.fst G w X (gEst F) (I)) (shareMean P X G w Prod.fst θ (D.filter q))
    (wGood (D.filter q) Prod.fst G w X (H)) (shareInfluence P X G w Prod.fst θ ψ (D.filter q)) :=
  share_regular hX (fun c hc => (hC c hc).regular) (fun c hc => (hC c hc).sq) (fun c hc => (hC c hc).cohort) hD

/-- Total share, estimate and influence function of the cells in the mask, as `aggte` computes them. -/
theorem gen_facts {n : ℕ} {ω : Ω} {p : Agg.Cell (Fin n) ℝ → Bool} (hp : ∀ v : Agg.Cell (Fin n) ℝ, p v = q (v.g, v.t))
    (hω : ω ∈ wGood (D.filter q) Prod.fst G w X H n) :
    Agg.totalShare (fun i : Fin n => G (X i ω)) (fun i => w (X i ω)) (genTable F I D n ω) p ≠ 0 ∧
    Agg.weightedMean (fun i : Fin n => G (X i ω)) (fun i => w (X i ω)) (genTable F I D n ω) p =
      wEst (D.filter q) Prod.fst G w X (gEst F) n ω ∧
    Agg.meanIF (fun i : Fin n => G (X i ω)) (fun i => w (X i ω)) (genTable F I D n ω) p =
      wInf (D.filter q) Prod.fst G w X (gEst F) I n ω := by
  have hf := gen_filter hX hC hp (wGood_mem hω)
  refine ⟨?_, table_mean hf, funext fun i => table_inf hf hω.2 i⟩
  rw [table_total hf]
  exact hω.2

end

omit hX in
theorem gen_table_mem {n : ℕ} {ω : Ω} {v : Agg.Cell (Fin n) ℝ} (hv : v ∈ genTable F I D n ω) : (v.g, v.t) ∈ D := by
  obtain ⟨c, hc, h⟩ := List.mem_filterMap.1 hv
  obtain ⟨u, -, rfl⟩ := Option.map_eq_some_iff.1 h
  exact hc

/-- **Generic (simple aggregate).** -/
theorem gen_simple (hC : ∀ c ∈ postCells D, CellFit P X G w F I θ H ψ c) (hD : postCells D ≠ []) :
    Inference P X (fun n ω => repOf (Agg.simpleAgg (fun i : Fin n => G (X i ω)) (fun i => w (X i ω)) none (genTable F I D n ω)).1
        (Agg.simpleAgg (fun i : Fin n => G (X i ω)) (fun i => w (X i ω)) none (genTable F I D n ω)).2)
      (shareMean P X G w Prod.fst θ (postCells D)) (shareInfluence P X G w Prod.fst θ ψ (postCells D)) := by
  refine (genq_regular hX hC hD).inference hX _ fun n ω hω => ?_
  obtain ⟨h1, h2, h3⟩ := gen_facts hX hC (p := Agg.post) (fun v => rfl) hω
  rw [Agg.C32_simple _ _ _ h1, Agg.C37_simple_influence _ _ _ h1, h2, h3]
  rfl

theorem gen_event_facts {e : ℤ} (hC : ∀ c ∈ eventCells D e, CellFit P X G w F I θ H ψ c)
    (hD : eventCells D e ≠ []) {minE maxE : Option ℤ} (hr : Agg.inRange minE maxE e)
    {n : ℕ} {ω : Ω} (hω : ω ∈ wGood (eventCells D e) Prod.fst G w X H n) :
    (∃ r ∈ (Agg.dynamicAgg (fun i : Fin n => G (X i ω)) (fun i => w (X i ω)) none minE maxE (genTable F I D n ω)).effects, r.label = e) ∧
    ∀ r ∈ (Agg.dynamicAgg (fun i : Fin n => G (X i ω)) (fun i => w (X i ω)) none minE maxE (genTable F I D n ω)).effects, r.label = e →
      r.att = some (wEst (eventCells D e) Prod.fst G w X (gEst F) n ω) ∧
      r.psi = wInf (eventCells D e) Prod.fst G w X (gEst F) I n ω := by
  obtain ⟨c, hc⟩ := List.exists_mem_of_ne_nil _ hD
  obtain ⟨h1, h2, h3⟩ := gen_facts hX hC (p := Agg.atEvent e) (fun v => rfl) hω
  obtain ⟨-, h4, h5⟩ := Agg.C32_dynamic (fun i : Fin n => G (X i ω)) (fun i => w (X i ω)) minE maxE (genTable F I D n ω)
  refine ⟨?_, fun r hr hre => ⟨?_, ?_⟩⟩
  · obtain ⟨v, hv, hg, ht⟩ := gen_mem hX hC hc (wGood_mem hω c hc)
    obtain ⟨r, hr, hre⟩ := List.mem_map.1 ((h4 e).2 ⟨⟨v, hv, by rw [hg, ht]; simpa using (List.mem_filter.1 hc).2⟩, hr⟩)
    exact ⟨r, hr, hre⟩
  · rw [h5 r hr (by rw [hre]; exact h1), hre, h2]
    rfl
  · rw [Agg.C37_dynamic_influence _ _ _ _ _ r hr, hre, h3]
    rfl

/-- **Generic (event-time effects).** -/
theorem gen_event {e : ℤ} (hC : ∀ c ∈ eventCells D e, CellFit P X G w F I θ H ψ c) (hD : eventCells D e ≠ []) {minE maxE : Option ℤ}
    (hr : Agg.inRange minE maxE e) :
    Inference P X (fun n ω => rowOf (Agg.dynamicAgg (fun i : Fin n => G (X i ω)) (fun i => w (X i ω)) none minE maxE (genTable F I D n ω)).effects e)
      (shareMean P X G w Prod.fst θ (eventCells D e)) (shareInfluence P X G w Prod.fst θ ψ (eventCells D e)) := by
  refine (genq_regular hX hC hD).inference hX _ fun n ω hω => ?_
  obtain ⟨h1, h2⟩ := gen_event_facts hX hC hD hr hω
  exact rowOf_eq h1 h2

theorem gen_period_facts {t : ℤ} (hC : ∀ c ∈ periodCells D t, CellFit P X G w F I θ H ψ c) (hD : periodCells D t ≠ [])
    {n : ℕ} {ω : Ω} (hω : ω ∈ wGood (periodCells D t) Prod.fst G w X H n) :
    (∃ r ∈ (Agg.calendarAgg (fun i : Fin n => G (X i ω)) (fun i => w (X i ω)) (genTable F I D n ω)).effects, r.label = t) ∧
    ∀ r ∈ (Agg.calendarAgg (fun i : Fin n => G (X i ω)) (fun i => w (X i ω)) (genTable F I D n ω)).effects, r.label = t →
      r.att = some (wEst (periodCells D t) Prod.fst G w X (gEst F) n ω) ∧
      r.psi = wInf (periodCells D t) Prod.fst G w X (gEst F) I n ω := by
  obtain ⟨c, hc⟩ := List.exists_mem_of_ne_nil _ hD
  obtain ⟨h1, h2, h3⟩ := gen_facts hX hC (p := Agg.atPeriod t) (fun v => rfl) hω
  obtain ⟨-, h4, h5⟩ := Agg.C32_calendar (fun i : Fin n => G (X i ω)) (fun i => w (X i ω)) (genTable F I D n ω)
  refine ⟨?_, fun r hr hre => ?_⟩
  · obtain ⟨v, hv, hg, ht⟩ := gen_mem hX hC hc (wGood_mem hω c hc)
    have hct := (List.mem_filter.1 hc).2
    simp only [decide_eq_true_eq] at hct
    obtain ⟨r, hr, hre⟩ := List.mem_map.1 ((h4 t).2 ⟨⟨v, hv, by rw [ht]; exact hct.1⟩, v, hv, by rw [hg]; exact hct.2⟩)
    exact ⟨r, hr, hre⟩
  · have e1 := (h5 r hr).2 (by rw [hre]; exact h1)
    refine ⟨?_, ?_⟩
    · rw [e1, hre, h2]
      rfl
    · rw [Agg.C37_calendar_influence _ _ _ r hr (by rw [e1]; rfl), hre, h3]
      rfl

/-- **Generic (effects by calendar period).** -/
theorem gen_period {t : ℤ} (hC : ∀ c ∈ periodCells D t, CellFit P X G w F I θ H ψ c) (hD : periodCells D t ≠ []) :
    Inference P X (fun n ω => rowOf (Agg.calendarAgg (fun i : Fin n => G (X i ω)) (fun i => w (X i ω)) (genTable F I D n ω)).effects t)
      (shareMean P X G w Prod.fst θ (periodCells D t)) (shareInfluence P X G w Prod.fst θ ψ (periodCells D t)) := by
  refine (genq_regular hX hC hD).inference hX _ fun n ω hω => ?_
  obtain ⟨h1, h2⟩ := gen_period_facts hX hC hD hω
  exact rowOf_eq h1 h2

theorem gen_cohort_facts {g : ℤ} (hC : ∀ c ∈ cohortCells D g, CellFit P X G w F I θ H ψ c) (hD : cohortCells D g ≠ [])
    {n : ℕ} {ω : Ω} (hω : ω ∈ ⋂ k : Fin (cohortCells D g).length, H (cohortCells D g)[k.1] n) :
    (∃ r ∈ (Agg.groupAgg (fun i : Fin n => G (X i ω)) (fun i => w (X i ω)) none (genTable F I D n ω)).effects, r.label = g) ∧
    ∀ r ∈ (Agg.groupAgg (fun i : Fin n => G (X i ω)) (fun i => w (X i ω)) none (genTable F I D n ω)).effects, r.label = g →
      r.att = some (Agg.plainMean ((cohortCells D g).map fun c => gEst F c n ω)) ∧
      r.psi = fun i => Agg.plainMean ((cohortCells D g).map fun c => I c n ω i) := by
  obtain ⟨c, hc⟩ := List.exists_mem_of_ne_nil _ hD
  have hf := gen_filter hX hC (p := Agg.ofCohort g) (fun v => rfl) (list_mem hω)
  obtain ⟨-, h4, h5⟩ := Agg.C32_group (fun i : Fin n => G (X i ω)) (fun i => w (X i ω)) (genTable F I D n ω)
  obtain ⟨v, hv, hg, ht⟩ := gen_mem hX hC hc (list_mem hω c hc)
  have hct := (List.mem_filter.1 hc).2
  simp only [decide_eq_true_eq] at hct
  refine ⟨?_, fun r hr hre => ?_⟩
  · obtain ⟨r, hr, hre⟩ := List.mem_map.1 ((h4 g).2 ⟨v, hv, by rw [hg]; exact hct.1⟩)
    exact ⟨r, hr, hre⟩
  · obtain ⟨e1, e2⟩ := (h5 r hr).2 ⟨v, hv, by rw [hg, hre]; exact hct.1, by rw [ht, hre]; exact hct.2⟩
    rw [hre, hf, List.map_map] at e1
    rw [hre, hf] at e2
    refine ⟨e1, funext fun i => ?_⟩
    rw [e2 i, List.map_map]
    rfl

theorem gen_cohort_row {g : ℤ} (hC : ∀ c ∈ cohortCells D g, CellFit P X G w F I θ H ψ c) {c : ℤ × ℤ} (hc : c ∈ cohortCells D g)
    {n : ℕ} {ω : Ω} (hω : ω ∈ H c n) : ∃ v ∈ genTable F I D n ω, v.g = c.1 := by
  obtain ⟨v, hv, h, -⟩ := gen_mem hX hC hc hω
  exact ⟨v, hv, h⟩

/-- **Generic (effects by cohort).**  A plain mean over the cohort's post-treatment periods. -/
theorem gen_cohort {g : ℤ} (hC : ∀ c ∈ cohortCells D g, CellFit P X G w F I θ H ψ c) (hD : cohortCells D g ≠ []) :
    Inference P X (fun n ω => rowOf (Agg.groupAgg (fun i : Fin n => G (X i ω)) (fun i => w (X i ω)) none (genTable F I D n ω)).effects g)
      (Agg.plainMean ((cohortCells D g).map fun c => θ c))
      fun z => Agg.plainMean ((cohortCells D g).map fun c => ψ c z) := by
  refine (list_regular hX fun c hc => (hC c hc).regular).inference hX _ fun n ω hω => ?_
  obtain ⟨h1, h2⟩ := gen_cohort_facts hX hC hD hω
  exact rowOf_eq h1 h2

/-! ## C261: the overall effects -/

/-- **Generic (dynamic aggregation, overall effect).**  `evs` are the event times from 0 on that the cells cover within the requested range. -/
theorem gen_dynamic (evs : List ℤ) {minE maxE : Option ℤ} (hev : evs.Pairwise (· < ·))
    (hmem : ∀ e, e ∈ evs ↔ 0 ≤ e ∧ (∃ c ∈ D, c.2 - c.1 = e) ∧ Agg.inRange minE maxE e) (hne : evs ≠ [])
    (hC : ∀ e ∈ evs, ∀ c ∈ eventCells D e, CellFit P X G w F I θ H ψ c) :
    Inference P X (fun n ω => repOf (Agg.dynamicAgg (fun i : Fin n => G (X i ω)) (fun i => w (X i ω)) none minE maxE (genTable F I D n ω)).overall
        (Agg.dynamicAgg (fun i : Fin n => G (X i ω)) (fun i => w (X i ω)) none minE maxE (genTable F I D n ω)).overallPsi)
      (Agg.plainMean (evs.map fun e => shareMean P X G w Prod.fst θ (eventCells D e)))
      fun z => Agg.plainMean (evs.map fun e => shareInfluence P X G w Prod.fst θ ψ (eventCells D e) z) := by
  have hD : ∀ e ∈ evs, eventCells D e ≠ [] := fun e he => by
    obtain ⟨c, hc, hce⟩ := ((hmem e).1 he).2.1
    exact List.ne_nil_of_mem (List.mem_filter.2 ⟨hc, by simpa using hce⟩)
  refine (list_regular hX fun e he => genq_regular hX (hC e he) (hD e he)).inference hX _ fun n ω hω => ?_
  have hg : ∀ e ∈ evs, ω ∈ wGood (eventCells D e) Prod.fst G w X H n := fun e he =>
    list_mem (H := fun e => wGood (eventCells D e) Prod.fst G w X (H)) hω e he
  have hf : ∀ e ∈ evs, _ := fun e he => gen_event_facts hX (hC e he) (hD e he) ((hmem e).1 he).2.2 (hg e he)
  obtain ⟨e0, he0⟩ := List.exists_mem_of_ne_nil _ hne
  obtain ⟨h3, h4, -⟩ := Agg.C32_dynamic (fun i : Fin n => G (X i ω)) (fun i => w (X i ω)) minE maxE (genTable F I D n ω)
  have hlab : ∀ r ∈ (Agg.dynamicAgg (fun i : Fin n => G (X i ω)) (fun i => w (X i ω)) none minE maxE (genTable F I D n ω)).effects, 0 ≤ r.label →
      r.label ∈ evs := by
    intro r hr h0
    obtain ⟨⟨v, hv, hve⟩, hrange⟩ := (h4 r.label).1 (List.mem_map_of_mem hr)
    exact (hmem _).2 ⟨h0, ⟨_, gen_table_mem hv, hve⟩, hrange⟩
  obtain ⟨h6, -, -, h7⟩ := Agg.C37_dynamic_overall (fun i : Fin n => G (X i ω)) (fun i => w (X i ω)) minE maxE (genTable F I D n ω)
    (fun r hr h0 => by rw [((hf r.label (hlab r hr h0)).2 r hr rfl).1]; rfl)
    (by obtain ⟨r, hr, hre⟩ := (hf e0 he0).1; exact ⟨r, hr, by rw [hre]; exact ((hmem e0).1 he0).1⟩)
  have hrows : (Agg.dynamicAgg (fun i : Fin n => G (X i ω)) (fun i => w (X i ω)) none minE maxE (genTable F I D n ω)).effects.filter
      (fun x => decide (0 ≤ x.label)) = evs.map fun e => ⟨e, some (wEst (eventCells D e) Prod.fst G w X (gEst F) n ω),
        wInf (eventCells D e) Prod.fst G w X (gEst F) I n ω⟩ := by
    refine rows_eq ?_ hev (fun r hr => ?_) (fun l hl => ?_) fun r hr => ?_
    · exact List.Pairwise.map _ (fun _ _ h => h) ((List.pairwise_map.1 h3).filter _)
    · obtain ⟨hr, h0⟩ := List.mem_filter.1 hr
      exact hlab r hr (by simpa using h0)
    · obtain ⟨r, hr, rfl⟩ := (hf l hl).1
      exact ⟨r, List.mem_filter.2 ⟨hr, by simpa using ((hmem _).1 hl).1⟩, rfl⟩
    · obtain ⟨hr, h0⟩ := List.mem_filter.1 hr
      exact (hf r.label (hlab r hr (by simpa using h0))).2 r hr rfl
  rw [hrows, numbers_rows] at h6
  rw [h6]
  simp only [hrows, List.map_map] at h7
  rw [funext h7]
  rfl

/-- **Generic (calendar aggregation, overall effect).**  `ts` are the periods with a post-treatment cell. -/
theorem gen_calendar (ts : List ℤ) (hts : ts.Pairwise (· < ·)) (hmem : ∀ t, t ∈ ts ↔ ∃ c ∈ D, c.2 = t ∧ c.1 ≤ t) (hne : ts ≠ [])
    (hC : ∀ c ∈ postCells D, CellFit P X G w F I θ H ψ c) :
    Inference P X (fun n ω => repOf (Agg.calendarAgg (fun i : Fin n => G (X i ω)) (fun i => w (X i ω)) (genTable F I D n ω)).overall
        (Agg.calendarAgg (fun i : Fin n => G (X i ω)) (fun i => w (X i ω)) (genTable F I D n ω)).overallPsi)
      (Agg.plainMean (ts.map fun t => shareMean P X G w Prod.fst θ (periodCells D t)))
      fun z => Agg.plainMean (ts.map fun t => shareInfluence P X G w Prod.fst θ ψ (periodCells D t) z) := by
  have hC : ∀ t ∈ ts, ∀ c ∈ periodCells D t, CellFit P X G w F I θ H ψ c := fun t _ c hc => by
    obtain ⟨hc, h⟩ := List.mem_filter.1 hc
    simp only [decide_eq_true_eq] at h
    exact hC c (List.mem_filter.2 ⟨hc, by simp only [decide_eq_true_eq]; omega⟩)
  have hD : ∀ t ∈ ts, periodCells D t ≠ [] := fun t ht => by
    obtain ⟨c, hc, h⟩ := (hmem t).1 ht
    exact List.ne_nil_of_mem (List.mem_filter.2 ⟨hc, by simpa using h⟩)
  refine (list_regular hX fun t ht => genq_regular hX (hC t ht) (hD t ht)).inference hX _ fun n ω hω => ?_
  have hg : ∀ t ∈ ts, ω ∈ wGood (periodCells D t) Prod.fst G w X H n := fun t ht =>
    list_mem (H := fun t => wGood (periodCells D t) Prod.fst G w X (H)) hω t ht
  have hf : ∀ t ∈ ts, _ := fun t ht => gen_period_facts hX (hC t ht) (hD t ht) (hg t ht)
  obtain ⟨t0, ht0⟩ := List.exists_mem_of_ne_nil _ hne
  obtain ⟨h3, h4, h5⟩ := Agg.C32_calendar (fun i : Fin n => G (X i ω)) (fun i => w (X i ω)) (genTable F I D n ω)
  have hlab : ∀ r ∈ (Agg.calendarAgg (fun i : Fin n => G (X i ω)) (fun i => w (X i ω)) (genTable F I D n ω)).effects, r.att.isSome = true →
      r.label ∈ ts := by
    intro r hr h0
    by_contra hcon
    rw [(h5 r hr).1 (by
      rintro ⟨v, hv, h⟩
      exact hcon ((hmem _).2 ⟨_, gen_table_mem hv, h⟩))] at h0
    exact absurd h0 (by simp)
  obtain ⟨h6, -, -, h7⟩ := Agg.C37_calendar_overall (fun i : Fin n => G (X i ω)) (fun i => w (X i ω)) (genTable F I D n ω)
    (by obtain ⟨r, hr, hre⟩ := (hf t0 ht0).1; exact ⟨r, hr, by rw [((hf t0 ht0).2 r hr hre).1]; rfl⟩)
  have hrows : (Agg.calendarAgg (fun i : Fin n => G (X i ω)) (fun i => w (X i ω)) (genTable F I D n ω)).effects.filter
      (fun x => x.att.isSome) = ts.map fun t => ⟨t, some (wEst (periodCells D t) Prod.fst G w X (gEst F) n ω),
        wInf (periodCells D t) Prod.fst G w X (gEst F) I n ω⟩ := by
    refine rows_eq ?_ hts (fun r hr => ?_) (fun l hl => ?_) fun r hr => ?_
    · exact List.Pairwise.map _ (fun _ _ h => h) ((List.pairwise_map.1 h3).filter _)
    · obtain ⟨hr, h0⟩ := List.mem_filter.1 hr
      exact hlab r hr h0
    · obtain ⟨r, hr, hre⟩ := (hf l hl).1
      exact ⟨r, List.mem_filter.2 ⟨hr, by rw [((hf l hl).2 r hr hre).1]; rfl⟩, hre⟩
    · obtain ⟨hr, h0⟩ := List.mem_filter.1 hr
      exact (hf r.label (hlab r hr h0)).2 r hr rfl
  rw [hrows, numbers_rows] at h6
  rw [h6]
  simp only [hrows, List.map_map] at h7
  rw [funext h7]
  rfl

/-- **Generic (group aggregation, overall effect).**  `gs` are the cohorts of the cells, each with a post-treatment cell; the cohort means are weighted by the cohort
shares. -/
theorem gen_group (gs : List ℤ) (hgs : gs.Pairwise (· < ·)) (hmem : ∀ g, g ∈ gs ↔ ∃ c ∈ D, c.1 = g) (hne : gs ≠ [])
    (hpost : ∀ g ∈ gs, cohortCells D g ≠ []) (hC : ∀ c ∈ postCells D, CellFit P X G w F I θ H ψ c) :
    Inference P X (fun n ω => repOf (Agg.groupAgg (fun i : Fin n => G (X i ω)) (fun i => w (X i ω)) none (genTable F I D n ω)).overall
        (Agg.groupAgg (fun i : Fin n => G (X i ω)) (fun i => w (X i ω)) none (genTable F I D n ω)).overallPsi)
      (shareMean P X G w id (fun g => Agg.plainMean ((cohortCells D g).map fun c => θ c)) gs)
      (shareInfluence P X G w id (fun g => Agg.plainMean ((cohortCells D g).map fun c => θ c))
        (fun g z => Agg.plainMean ((cohortCells D g).map fun c => ψ c z)) gs) := by
  have hC : ∀ g, ∀ c ∈ cohortCells D g, c.1 = g ∧ CellFit P X G w F I θ H ψ c := fun g c hc => by
    obtain ⟨hc, h⟩ := List.mem_filter.1 hc
    simp only [decide_eq_true_eq] at h
    exact ⟨h.1, hC c (List.mem_filter.2 ⟨hc, by simp only [decide_eq_true_eq]; omega⟩)⟩
  have hw : ∀ z, 0 ≤ w z := by
    obtain ⟨g, hg⟩ := List.exists_mem_of_ne_nil _ hne
    obtain ⟨c, hc⟩ := List.exists_mem_of_ne_nil _ (hpost g hg)
    exact (hC g c hc).2.nonneg
  have hsq : ∀ g ∈ gs, SqInt P X fun z => w z * isG G (id g) z := fun g hg => by
    obtain ⟨c, hc⟩ := List.exists_mem_of_ne_nil _ (hpost g hg)
    have := (hC g c hc).2.sq
    rwa [(hC g c hc).1] at this
  have hsh : ∀ g ∈ gs, 0 < popShare P X G w (id g) := fun g hg => by
    obtain ⟨c, hc⟩ := List.exists_mem_of_ne_nil _ (hpost g hg)
    have := (hC g c hc).2.cohort
    rwa [(hC g c hc).1] at this
  have hreg := share_regular hX (fun g hg => list_regular hX fun c hc => (hC g c hc).2.regular) hsq hsh hne
  refine hreg.inference hX _ fun n ω hω => ?_
  have hf : ∀ g ∈ gs, _ := fun g hg => gen_cohort_facts hX (fun c hc => (hC g c hc).2) (hpost g hg) (wGood_mem hω g hg)
  obtain ⟨h3, h4, -⟩ := Agg.C32_group (fun i : Fin n => G (X i ω)) (fun i => w (X i ω)) (genTable F I D n ω)
  have hlab : ∀ r ∈ (Agg.groupAgg (fun i : Fin n => G (X i ω)) (fun i => w (X i ω)) none (genTable F I D n ω)).effects, r.label ∈ gs := by
    intro r hr
    obtain ⟨v, hv, hve⟩ := (h4 r.label).1 (List.mem_map_of_mem hr)
    exact (hmem _).2 ⟨_, gen_table_mem hv, hve⟩
  have hrows := rows_eq h3 hgs hlab (fun g hg => (hf g hg).1) (v := fun g => Agg.plainMean ((cohortCells D g).map fun c => gEst F c n ω))
    (psi := fun g i => Agg.plainMean ((cohortCells D g).map fun c => I c n ω i)) fun r hr => (hf r.label (hlab r hr)).2 r hr rfl
  have hcell : (Agg.effTable (Agg.groupAgg (fun i : Fin n => G (X i ω)) (fun i => w (X i ω)) none (genTable F I D n ω)).effects).filter (fun _ => true) =
      gs.map fun g => ⟨id g, g, Agg.plainMean ((cohortCells D g).map fun c => gEst F c n ω),
        fun i => Agg.plainMean ((cohortCells D g).map fun c => I c n ω i)⟩ := by
    rw [hrows, List.filter_true]
    unfold Agg.effTable
    rw [List.map_map]
    rfl
  have htot := table_total (G := G) (w := w) (X := X) (ω := ω) (est := fun g n ω => Agg.plainMean ((cohortCells D g).map fun c => gEst F c n ω))
    (inf := fun g n ω i => Agg.plainMean ((cohortCells D g).map fun c => I c n ω i)) hcell
  have hpos : ∃ c ∈ genTable F I D n ω, ∃ i : Fin n, G (X i ω) = (c.g : WithTop ℤ) ∧ 0 < w (X i ω) := by
    obtain ⟨k, -, hk⟩ := Finset.exists_ne_zero_of_sum_ne_zero hω.2
    rw [← mean_eq] at hk
    obtain ⟨i, -, hi⟩ := Finset.exists_ne_zero_of_sum_ne_zero (div_ne_zero_iff.1 hk).1
    have hgk := List.getElem_mem (l := gs) k.2
    obtain ⟨c, hc⟩ := List.exists_mem_of_ne_nil _ (hpost _ hgk)
    obtain ⟨v, hv, hvg⟩ := gen_cohort_row hX (fun c hc => (hC gs[k.1] c hc).2) hc (list_mem (wGood_mem hω _ hgk) c hc)
    obtain ⟨hw0, hi0⟩ := mul_ne_zero_iff.1 hi
    refine ⟨v, hv, i, ?_, lt_of_le_of_ne (hw _) (Ne.symm hw0)⟩
    rw [hvg, (hC _ c hc).1]
    by_contra hcon
    exact hi0 (if_neg hcon)
  obtain ⟨b, h6, h7, -⟩ := Agg.C37_group_overall (fun i : Fin n => G (X i ω)) (fun i => w (X i ω)) (fun i => hw _) none (genTable F I D n ω)
    (fun r hr => by rw [((hf r.label (hlab r hr)).2 r hr rfl).1]; rfl) hpos
  have hmean := table_mean (G := G) (w := w) (X := X) (ω := ω) (est := fun g n ω => Agg.plainMean ((cohortCells D g).map fun c => gEst F c n ω))
    (inf := fun g n ω i => Agg.plainMean ((cohortCells D g).map fun c => I c n ω i)) hcell
  have hinf := table_inf (G := G) (w := w) (X := X) (ω := ω) (est := fun g n ω => Agg.plainMean ((cohortCells D g).map fun c => gEst F c n ω))
    (inf := fun g n ω i => Agg.plainMean ((cohortCells D g).map fun c => I c n ω i)) hcell hω.2
  rw [h6, Agg.C37_group_influence, funext hinf, h7, ← hmean]
  unfold Agg.weightedMean Agg.totalShare
  rw [hcell, hrows]
  simp only [List.map_map]
  rfl

end


end Verif.Asym
