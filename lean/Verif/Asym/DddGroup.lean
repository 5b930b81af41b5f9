import Verif.Asym.DddAgg

set_option linter.unusedSectionVars false
set_option linter.unusedSimpArgs false

/-!
# C285: cohort effects and the overall group effect of `agg_ddd` in large samples
-/

namespace Verif.Asym

open MeasureTheory ProbabilityTheory Filter Topology Verif.Honest Verif.DR Verif.Triple

variable {Ω 𝓧 : Type*} [MeasurableSpace Ω] [MeasurableSpace 𝓧]

section
variable {ι : Type*} [Fintype ι]

theorem group_eff {d : DIn ι ℝ} (hd : Labelled d) {g : ℤ} (hg : g ∈ d.glist) (hne : d.cells.filter (Agg.ofCohort g) ≠ []) (hs : Agg.share d.G Triple.one g ≠ (0 : ℝ)) :
    dGroupEff none d g = ⟨g, some (Agg.plainMean ((d.cells.filter (Agg.ofCohort g)).map Agg.Cell.att)),
      fun i => Agg.plainMean ((d.cells.filter (Agg.ofCohort g)).map fun c => c.psi i)⟩ := by
  unfold dGroupEff
  simp only [group_kept hd hg]
  rw [if_neg (by simpa using hne)]
  have hps : dPsi d (d.cells.filter (Agg.ofCohort g)) = fun i => Agg.plainMean ((d.cells.filter (Agg.ofCohort g)).map fun c => c.psi i) := by
    funext i
    rw [dPsi_eq hd]
    have hmem : ∀ c ∈ d.cells.filter (Agg.ofCohort g), c.g = g := fun c hc => by
      have := (List.mem_filter.1 hc).2
      simp only [Agg.ofCohort, decide_eq_true_eq] at this
      exact this.1
    have e1 : ((d.cells.filter (Agg.ofCohort g)).map fun c => Agg.share d.G Triple.one c.g * c.psi i) =
        (d.cells.filter (Agg.ofCohort g)).map fun c => Agg.share d.G Triple.one g * c.psi i := List.map_congr_left fun c hc => by rw [hmem c hc]
    have e2 : Agg.totalShare d.G Triple.one d.cells (Agg.ofCohort g) = ((d.cells.filter (Agg.ofCohort g)).length : ℝ) * Agg.share d.G Triple.one g := by
      unfold Agg.totalShare
      rw [List.map_congr_left (g := fun _ => Agg.share d.G Triple.one g) fun c hc => by rw [hmem c hc], List.map_const', List.sum_replicate, nsmul_eq_mul]
    rw [e1, e2, List.sum_map_mul_left]
    unfold Agg.plainMean
    rw [List.length_map, mul_comm (_ : ℝ) (Agg.share d.G Triple.one g), mul_div_mul_left _ _ hs]
  rw [hps]
  simp only [Agg.plainMean, List.length_map]

/-- The overall group effect and its influence values, as weighted mean and influence function with unit weights of the cohort effects. -/
theorem group_overall {d : DIn ι ℝ} (hd : Labelled d) (hS : (d.glist.map (Agg.share d.G Triple.one)).sum ≠ (0 : ℝ)) :
    (dGroup none d).overall = some (Agg.weightedMean d.G Triple.one (effCells (dGroup none d).effects) fun _ => true) ∧
    (dGroup none d).overallPsi = Agg.meanIF d.G Triple.one (effCells (dGroup none d).effects) fun _ => true := by
  obtain ⟨E, hE⟩ : ∃ E, E = (dGroup none d).effects := ⟨_, rfl⟩
  have hlab : E.map Agg.Eff.label = d.glist := hE ▸ (C54_group_effects d hd).1
  rw [← hE]
  have hc : (effCells E).filter (fun _ => true) = effCells E := by rw [List.filter_eq_self]; intros; rfl
  have hshare : Agg.totalShare d.G Triple.one (effCells E) (fun _ => true) = (d.glist.map (Agg.share d.G Triple.one)).sum := by
    unfold Agg.totalShare
    rw [hc, ← hlab, List.map_map]
    unfold effCells
    rw [List.map_map]; rfl
  have hs' : (d.glist.map (dShare d)).sum = (d.glist.map (Agg.share d.G Triple.one)).sum := rfl
  constructor
  · have e : (dGroup none d).overall = some ((E.map fun e => e.att.getD 0 * dShare d e.label).sum / (d.glist.map (Agg.share d.G Triple.one)).sum) := by
      rw [hE]
      show (if (d.glist.map (dShare d)).sum = 0 then none else some _) = _
      rw [hs', if_neg hS]; rfl
    rw [e]
    unfold Agg.weightedMean
    rw [hshare, hc]
    congr 3
    unfold effCells
    rw [List.map_map]
    exact List.map_congr_left fun e _ => by rw [dShare_eq, mul_comm]; rfl
  · funext j
    unfold Agg.meanIF
    rw [hshare, hc]
    have hco : Agg.cohorts (effCells E) (fun _ => true) = d.glist := by
      unfold Agg.cohorts
      rw [hc, ← hlab]
      unfold effCells
      rw [List.map_map]; rfl
    rw [hco]
    have hp : (dGroup none d).overallPsi j = (E.map fun e => e.psi j * (dShare d e.label / (d.glist.map (dShare d)).sum)).sum +
        (E.map fun e => dWif d e.label j * e.att.getD 0).sum := by
      rw [hE]
      rfl
    rw [hp, hs']
    congr 1
    · rw [← Agg.sum_div_list]
      unfold effCells
      rw [List.map_map]
      congr 1
      refine List.map_congr_left fun e _ => ?_
      simp only [Function.comp_apply]
      rw [dShare_eq]; ring
    · unfold effCells
      rw [List.map_map]
      congr 1
      refine List.map_congr_left fun e _ => ?_
      simp only [Function.comp_apply]
      congr 1
      unfold Agg.shareIF dWif
      simp only
      rw [hs']
      have e1 : ∀ h : ℤ, dShare d h = Agg.share d.G Triple.one h := fun _ => rfl
      simp only [e1]
      have e2 : ∀ h : ℤ, (if d.G j = (h : WithTop ℤ) then (Triple.one j : ℝ) else 0) = if d.G j = (h : WithTop ℤ) then 1 else 0 := fun _ => rfl
      simp only [e2]
      ring

end

section
variable {P : Measure Ω} [IsProbabilityMeasure P] {X : ℕ → Ω → 𝓧} (hX : Sampling P X) {G : 𝓧 → WithTop ℤ} {F : ℤ × ℤ → ℕ → Ω → Option ℝ}
  {I : ℤ × ℤ → (n : ℕ) → Ω → Fin n → ℝ} {θ : ℤ × ℤ → ℝ} {H : ℤ × ℤ → ℕ → Set Ω} {ψ : ℤ × ℤ → 𝓧 → ℝ} {D : List (ℤ × ℤ)} {gl tl : List ℤ}

/-- Samples on which the cells of a cohort are good and the cohort is present. -/
def gGood (D : List (ℤ × ℤ)) (H : ℤ × ℤ → ℕ → Set Ω) (G : 𝓧 → WithTop ℤ) (X : ℕ → Ω → 𝓧) (g : ℤ) (n : ℕ) : Set Ω :=
  (⋂ k : Fin (cohortCells D g).length, H (cohortCells D g)[k.1] n) ∩ {ω | avg X (fun z => each z * isG G g z) n ω ≠ 0}

include hX

theorem g_eff (hd : InData D gl tl) {g : ℤ} (hC : ∀ c ∈ cohortCells D g, CellFit P X G each F I θ H ψ c) (hD : cohortCells D g ≠ []) (hg : g ∈ gl) {n : ℕ} {ω : Ω}
    (hω : ω ∈ gGood D H G X g n) : dGroupEff none (dTable G F I D gl tl X n ω) g =
      ⟨g, some (Agg.plainMean ((cohortCells D g).map fun c => gEst F c n ω)), fun i => Agg.plainMean ((cohortCells D g).map fun c => I c n ω i)⟩ := by
  have hl := dTable_labelled (G := G) (F := F) (I := I) (X := X) hd n ω
  have hf : (dTable G F I D gl tl X n ω).cells.filter (Agg.ofCohort g) = (cohortCells D g).map fun c => ⟨c.1, c.2, gEst F c n ω, I c n ω⟩ :=
    gen_filter hX hC (p := Agg.ofCohort g) (fun v => rfl) (list_mem hω.1)
  have hs : Agg.share (dTable G F I D gl tl X n ω).G Triple.one g ≠ (0 : ℝ) := by
    have := share_avg G each X n ω g
    exact fun h => hω.2 (this.symm.trans h)
  rw [group_eff hl hg (by rw [hf]; simpa using hD) hs, hf, List.map_map]
  simp only [List.map_map]
  rfl

theorem g_regular {g : ℤ} (hC : ∀ c ∈ cohortCells D g, CellFit P X G each F I θ H ψ c) (hD : cohortCells D g ≠ []) :
    Regular P X (fun n ω => Agg.plainMean ((cohortCells D g).map fun c => gEst F c n ω)) (fun n ω i => Agg.plainMean ((cohortCells D g).map fun c => I c n ω i))
      (Agg.plainMean ((cohortCells D g).map θ)) (gGood D H G X g) fun z => Agg.plainMean ((cohortCells D g).map fun c => ψ c z) := by
  obtain ⟨c, hc⟩ := List.exists_mem_of_ne_nil _ hD
  have hg : c.1 = g := by
    have := (List.mem_filter.1 hc).2
    simp only [decide_eq_true_eq] at this
    exact this.1
  have hs : SqInt P X fun z => each z * isG G g z := hg ▸ (hC c hc).sq
  have hp : 0 < popShare P X G each g := hg ▸ (hC c hc).cohort
  refine (list_regular hX fun c hc => (hC c hc).regular).inter _ (fun n => (avg_aemeas hX hs.1 n).nullMeasurable (measurableSet_singleton 0).compl) ?_
  filter_upwards [lln2 hX hs] with ω h
  exact h.eventually_ne hp.ne'

/-- **Generic (effects by cohort).** -/
theorem d_cohort (hd : InData D gl tl) {g : ℤ} (hC : ∀ c ∈ cohortCells D g, CellFit P X G each F I θ H ψ c) (hD : cohortCells D g ≠ []) :
    Inference P X (fun n ω => rowOf (dGroup none (dTable G F I D gl tl X n ω)).effects g)
      (Agg.plainMean ((cohortCells D g).map θ)) fun z => Agg.plainMean ((cohortCells D g).map fun c => ψ c z) := by
  have hg : g ∈ gl := by
    obtain ⟨c, hc⟩ := List.exists_mem_of_ne_nil _ hD
    obtain ⟨h1, h2⟩ := List.mem_filter.1 hc
    simp only [decide_eq_true_eq] at h2
    exact h2.1 ▸ (hd.cells c h1).1
  refine (g_regular hX hC hD).inference hX _ fun n ω hω => ?_
  have he := g_eff hX hd hC hD hg hω
  refine rowOf_eq ⟨_, List.mem_map.2 ⟨g, hg, rfl⟩, by rw [he]⟩ fun r hr hre => ?_
  obtain ⟨g', hg', rfl⟩ := List.mem_map.1 hr
  have hlab : (dGroupEff none (dTable G F I D gl tl X n ω) g').label = g' := by
    unfold dGroupEff
    simp only
    split_ifs <;> rfl
  rw [hlab] at hre
  rw [hre, he]
  exact ⟨rfl, rfl⟩

/-- **Generic (overall group effect).** -/
theorem d_group (hd : InData D gl tl) (hne : gl ≠ []) (hpost : ∀ g ∈ gl, cohortCells D g ≠ []) (hC : ∀ c ∈ postCells D, CellFit P X G each F I θ H ψ c) :
    Inference P X (fun n ω => repOf (dGroup none (dTable G F I D gl tl X n ω)).overall (dGroup none (dTable G F I D gl tl X n ω)).overallPsi)
      (shareMean P X G each id (fun g => Agg.plainMean ((cohortCells D g).map θ)) gl)
      (shareInfluence P X G each id (fun g => Agg.plainMean ((cohortCells D g).map θ)) (fun g z => Agg.plainMean ((cohortCells D g).map fun c => ψ c z)) gl) := by
  have hC : ∀ g, ∀ c ∈ cohortCells D g, c.1 = g ∧ CellFit P X G each F I θ H ψ c := fun g c hc => by
    obtain ⟨hc, h⟩ := List.mem_filter.1 hc
    simp only [decide_eq_true_eq] at h
    exact ⟨h.1, hC c (List.mem_filter.2 ⟨hc, by simp only [decide_eq_true_eq]; omega⟩)⟩
  have hsq : ∀ g ∈ gl, SqInt P X fun z => each z * isG G (id g) z := fun g hg => by
    obtain ⟨c, hc⟩ := List.exists_mem_of_ne_nil _ (hpost g hg)
    have := (hC g c hc).2.sq
    rwa [(hC g c hc).1] at this
  have hsh : ∀ g ∈ gl, 0 < popShare P X G each (id g) := fun g hg => by
    obtain ⟨c, hc⟩ := List.exists_mem_of_ne_nil _ (hpost g hg)
    have := (hC g c hc).2.cohort
    rwa [(hC g c hc).1] at this
  have hreg := share_regular hX (fun g hg => g_regular hX (fun c hc => (hC g c hc).2) (hpost g hg)) hsq hsh hne
  refine hreg.inference hX _ fun n ω hω => ?_
  have hl := dTable_labelled (G := G) (F := F) (I := I) (X := X) hd n ω
  have hrows : (dGroup none (dTable G F I D gl tl X n ω)).effects = gl.map fun g => ⟨g, some (Agg.plainMean ((cohortCells D g).map fun c => gEst F c n ω)),
      fun i => Agg.plainMean ((cohortCells D g).map fun c => I c n ω i)⟩ :=
    List.map_congr_left fun g hg => g_eff hX hd (fun c hc => (hC g c hc).2) (hpost g hg) hg (wGood_mem hω g hg)
  have hcell : (effCells (dGroup none (dTable G F I D gl tl X n ω)).effects).filter (fun _ => true) =
      gl.map fun g => ⟨id g, g, Agg.plainMean ((cohortCells D g).map fun c => gEst F c n ω), fun i => Agg.plainMean ((cohortCells D g).map fun c => I c n ω i)⟩ := by
    rw [hrows, List.filter_true]
    unfold effCells
    rw [List.map_map]
    rfl
  have hmean := table_mean (G := G) (w := each) (X := X) (ω := ω) (est := fun g n ω => Agg.plainMean ((cohortCells D g).map fun c => gEst F c n ω))
    (inf := fun g n ω i => Agg.plainMean ((cohortCells D g).map fun c => I c n ω i)) hcell
  have hinf := table_inf (G := G) (w := each) (X := X) (ω := ω) (est := fun g n ω => Agg.plainMean ((cohortCells D g).map fun c => gEst F c n ω))
    (inf := fun g n ω i => Agg.plainMean ((cohortCells D g).map fun c => I c n ω i)) hcell hω.2
  have hS : ((dTable G F I D gl tl X n ω).glist.map (Agg.share (dTable G F I D gl tl X n ω).G Triple.one)).sum ≠ (0 : ℝ) := by
    have e : ((dTable G F I D gl tl X n ω).glist.map (Agg.share (dTable G F I D gl tl X n ω).G Triple.one)).sum = ∑ j, avg X (eOf gl id G each j) n ω := by
      unfold eOf
      rw [Fin.sum_univ_fun_getElem gl fun g => avg X (fun z => each z * isG G (id g) z) n ω]
      congr 1
      exact List.map_congr_left fun g _ => share_avg G each X n ω g
    rw [e]
    exact hω.2
  obtain ⟨e1, e2⟩ := group_overall hl hS
  rw [e1, e2]
  refine congrArg some (Prod.ext hmean (funext hinf))

end

/-! ## C285 -/

section
variable {P : Measure Ω} [IsProbabilityMeasure P] {X : ℕ → Ω → 𝓧} (hX : Sampling P X) {G : 𝓧 → WithTop ℤ} {E : 𝓧 → Bool} {y u : ℤ → 𝓧 → ℝ} {level : ℝ} {bs : ℤ × ℤ → ℤ}
  (hess : ∀ g, HessFam G E g X) (m : Est) {hi : ℝ} (hi0 : 0 < hi) (hi1 : hi < 1) {D : List (ℤ × ℤ)} {gl tl : List ℤ} (hd : InData D gl tl)
include hX hi0 hi1 hd

/-- **C285 (effects by cohort).**  A cohort effect tends to the plain mean over the cohort's post-treatment periods of the effects on its eligible units, and its interval has
coverage tending to `1 - alpha`. -/
theorem C285_cohort {g : ℤ} (hC : ∀ c ∈ cohortCells D g, TripleCell P X G E y u level c.1 c.2 (bs c)) (hD : cohortCells D g ≠ []) :
    Inference P X (fun n ω => rowOf (dGroup none (tripleTable G E y bs X hess m hi level D gl tl n ω)).effects g)
      (Agg.plainMean ((cohortCells D g).map fun c => eligibleATT P X G E y u c.1 c.2))
      fun z => Agg.plainMean ((cohortCells D g).map fun c => tripleCellInfluence P X G E y c.1 c.2 (bs c) z) :=
  d_cohort hX hd (fun c hc => triple_fit hX hess m hi0 hi1 (hC c hc)) hD

/-- **C285 (overall group effect).**  If every cohort of the data has a post-treatment cell, the overall effect tends to the mean of the cohort effects weighted by the shares of
the whole cohorts, and its interval, which does account for the estimated shares, has coverage tending to `1 - alpha`. -/
theorem C285_group (hne : gl ≠ []) (hpost : ∀ g ∈ gl, cohortCells D g ≠ []) (hC : ∀ c ∈ postCells D, TripleCell P X G E y u level c.1 c.2 (bs c)) :
    Inference P X (fun n ω => repOf (dGroup none (tripleTable G E y bs X hess m hi level D gl tl n ω)).overall
        (dGroup none (tripleTable G E y bs X hess m hi level D gl tl n ω)).overallPsi)
      (shareMean P X G each id (fun g => Agg.plainMean ((cohortCells D g).map fun c => eligibleATT P X G E y u c.1 c.2)) gl)
      (shareInfluence P X G each id (fun g => Agg.plainMean ((cohortCells D g).map fun c => eligibleATT P X G E y u c.1 c.2))
        (fun g z => Agg.plainMean ((cohortCells D g).map fun c => tripleCellInfluence P X G E y c.1 c.2 (bs c) z)) gl) :=
  d_group hX hd hne hpost fun c hc => triple_fit hX hess m hi0 hi1 (hC c hc)

end

/-- The cohorts of `Crews`: the effect of cohort 2 tends to (9/2 + 13/2) / 2, and the overall effect satisfies the conclusion. -/
example (hess : ∀ g, HessFam cwG cwE g (draw (𝓧 := Crews))) :
    Agg.plainMean ((cohortCells crewCells 2).map fun c => eligibleATT (draws Crews) draw cwG cwE cwY cwU c.1 c.2) = 11 / 2 ∧
    Inference (draws Crews) draw (fun n ω => repOf (dGroup none (tripleTable cwG cwE cwY (fun c => c.1 - 1) draw hess .dr (1 - 1 / 10 ^ 6) (995 / 1000) crewCells [2, 3] [1, 2, 3] n ω)).overall
        (dGroup none (tripleTable cwG cwE cwY (fun c => c.1 - 1) draw hess .dr (1 - 1 / 10 ^ 6) (995 / 1000) crewCells [2, 3] [1, 2, 3] n ω)).overallPsi)
      (shareMean (draws Crews) draw cwG each id (fun g => Agg.plainMean ((cohortCells crewCells g).map fun c => eligibleATT (draws Crews) draw cwG cwE cwY cwU c.1 c.2)) [2, 3])
      (shareInfluence (draws Crews) draw cwG each id (fun g => Agg.plainMean ((cohortCells crewCells g).map fun c => eligibleATT (draws Crews) draw cwG cwE cwY cwU c.1 c.2))
        (fun g z => Agg.plainMean ((cohortCells crewCells g).map fun c => tripleCellInfluence (draws Crews) draw cwG cwE cwY c.1 c.2 (c.1 - 1) z)) [2, 3]) := by
  refine ⟨?_, C285_group draws_sampling hess .dr (by norm_num) (by norm_num) crew_data (by simp) (by decide) fun c hc => crew_ok c (List.mem_filter.1 hc).1⟩
  rw [show cohortCells crewCells 2 = [(2, 2), (2, 3)] by decide]
  simp only [List.map_cons, List.map_nil]
  rw [cw_att 2 2 (.inl rfl) le_rfl, cw_att 2 3 (.inl rfl) (by norm_num)]
  unfold Agg.plainMean
  norm_num

end Verif.Asym
