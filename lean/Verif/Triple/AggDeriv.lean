import Verif.Triple.AggProps

/-!
# C79: do the influence functions of aggregated triple differences account for the estimated cohort shares?
-/

set_option linter.unusedSectionVars false
set_option linter.unusedSimpArgs false

namespace Verif.Triple

open Verif.Agg (Cell Eff share totalShare weightedMean plainMean post atEvent atPeriod ofCohort shareIF meanIF moved CellPaths
  cohorts weightedMean_deriv)

/-- The aggregation input of a run is labelled. -/
lemma run_labelled {K : Type*} [Field K] (inv : ∀ m, (Fin m → Fin m → K) → Fin m → Fin m → K) (est : Estimator K)
    (universal notyet : Bool) (data : List (Row K)) (r : MpResult K) (hr : dddMp inv est universal notyet data = some r) :
    Labelled (toDIn r) := by
  have hlab := C51_labels inv est universal notyet data r hr
  have hgl : r.glist = glistOf data ∧ r.tlist = tlistOf data := by
    unfold dddMp assemble at hr
    simp only at hr
    split_ifs at hr
    cases hr
    exact ⟨rfl, rfl⟩
  have hmem : ∀ c ∈ (toDIn r).cells, c.g ∈ glistOf data ∧ c.t ∈ tlistOf data := by
    intro c hc
    unfold toDIn at hc
    simp only [List.mem_map, List.mem_finRange, true_and] at hc
    obtain ⟨k, rfl⟩ := hc
    have hm : (r.entries[k].g, r.entries[k].t) ∈ r.entries.map (fun c => (c.g, c.t)) :=
      List.mem_map_of_mem (f := fun c : CellOut K => (c.g, c.t)) (List.getElem_mem k.2)
    rw [hlab] at hm
    simp only [List.mem_map, List.mem_filter] at hm
    obtain ⟨a, ⟨ha, _⟩, he⟩ := hm
    unfold attempts at ha
    simp only [List.mem_flatMap, List.mem_map, List.mem_range] at ha
    obtain ⟨g', hg', i, hi, rfl⟩ := ha
    simp only [Prod.mk.injEq] at he
    have hlt : i + (if universal = true then 0 else 1) < (tlistOf data).length := by omega
    rw [List.getElem?_eq_getElem hlt, Option.getD_some] at he
    exact ⟨he.1 ▸ hg', he.2 ▸ List.getElem_mem _⟩
  refine ⟨fun c hc => ?_, fun c hc => ?_, ?_⟩
  · show c.g ∈ r.glist; rw [hgl.1]; exact (hmem c hc).1
  · show c.t ∈ r.tlist; rw [hgl.2]; exact (hmem c hc).2
  · show r.glist.Nodup; rw [hgl.1]; exact (Agg.uniqueSorted_pairwise _).imp fun h => h.ne

variable {ι : Type*} [Fintype ι] [DecidableEq ι]

/-- Spec: the part of the derivative of a share-weighted mean with respect to unit `j`'s weight that comes from the
shares. -/
noncomputable def sharePart (d : DIn ι ℝ) (p : Cell ι ℝ → Bool) (j : ι) : ℝ :=
  ((d.cells.filter p).map fun c => shareIF d.G one (cohorts d.cells p) c.g j * c.att).sum

/-- **C79 (simple).** When the weight of unit `j` changes, the overall effect changes at the rate "reported influence
value plus the part due to the cohort shares": the reported value leaves that part out. -/
theorem C79_simple_gap (d : DIn ι ℝ) (hd : Labelled d) (hS : totalShare d.G one d.cells post ≠ 0) (j : ι)
    (A : Cell ι ℝ → ℝ → ℝ) (hA : CellPaths A d.cells j) :
    HasDerivAt (fun t => weightedMean d.G (DR.upw one j t) (moved A t d.cells) post)
      ((dSimple none d).2 j + sharePart d post j) 0 := by
  have h := weightedMean_deriv d.G one d.cells j A hA (fun g t => decide (g ≤ t)) hS
  refine h.congr_deriv ?_
  unfold meanIF sharePart dSimple
  have hf : d.cells.filter (dPost none d) = d.cells.filter post := List.filter_congr fun c hc => dPost_none hd hc
  simp only [hf]
  rw [dPsi_eq hd]; rfl

/-- **C79 (event study).** The same for every event-time effect. -/
theorem C79_event_gap (d : DIn ι ℝ) (hd : Labelled d) (minE maxE : Option ℤ) (j : ι)
    (A : Cell ι ℝ → ℝ → ℝ) (hA : CellPaths A d.cells j) :
    ∀ x ∈ (dEvent minE maxE d).effects, totalShare d.G one d.cells (atEvent x.label) ≠ 0 →
      HasDerivAt (fun t => weightedMean d.G (DR.upw one j t) (moved A t d.cells) (atEvent x.label))
        (x.psi j + sharePart d (atEvent x.label) j) 0 := by
  intro x hx hS
  rw [(C54_event d hd minE maxE x hx hS).2 j]
  exact weightedMean_deriv d.G one d.cells j A hA (fun g t => decide (t - g = x.label)) hS

/-- **C79 (calendar).** The same for every calendar effect. -/
theorem C79_calendar_gap (d : DIn ι ℝ) (hd : Labelled d) (j : ι)
    (A : Cell ι ℝ → ℝ → ℝ) (hA : CellPaths A d.cells j) :
    ∀ x ∈ (dCalendar d).effects, totalShare d.G one d.cells (atPeriod x.label) ≠ 0 →
      HasDerivAt (fun t => weightedMean d.G (DR.upw one j t) (moved A t d.cells) (atPeriod x.label))
        (x.psi j + sharePart d (atPeriod x.label) j) 0 := by
  intro x hx hS
  rw [(C54_calendar d hd x hx hS).2 j]
  exact weightedMean_deriv d.G one d.cells j A hA (fun g t => decide (t = x.label ∧ g ≤ x.label)) hS

/-- The cohort effects as a table of cells (a missing effect counts as zero, as the code has it). -/
def effCells (effs : List (Eff ι ℝ)) : List (Cell ι ℝ) := effs.map fun e => ⟨e.label, e.label, e.att.getD 0, e.psi⟩

/-- **C79 (group, holds).** The influence value of the overall group effect is its derivative: there the part due to the
shares is included. -/
theorem C79_group (d : DIn ι ℝ) (hd : Labelled d) (hS : (d.glist.map (share d.G one)).sum ≠ (0 : ℝ)) (j : ι)
    (A : Cell ι ℝ → ℝ → ℝ) (hA : CellPaths A (effCells (dGroup none d).effects) j) :
    (dGroup none d).overall = some (weightedMean d.G one (effCells (dGroup none d).effects) fun _ => true) ∧
    HasDerivAt (fun t => weightedMean d.G (DR.upw one j t) (moved A t (effCells (dGroup none d).effects)) fun _ => true)
      ((dGroup none d).overallPsi j) 0 := by
  set E := (dGroup none d).effects with hE
  have hlab : E.map Eff.label = d.glist := (C54_group_effects d hd).1
  have hc : (effCells E).filter (fun _ => true) = effCells E := by rw [List.filter_eq_self]; intros; rfl
  have hshare : totalShare d.G one (effCells E) (fun _ => true) = (d.glist.map (share d.G one)).sum := by
    unfold totalShare
    rw [hc, ← hlab, List.map_map]
    unfold effCells
    rw [List.map_map]; rfl
  have hs' : (d.glist.map (dShare d)).sum = (d.glist.map (share d.G one)).sum := rfl
  constructor
  · have e : (dGroup none d).overall = some ((E.map fun e => e.att.getD 0 * dShare d e.label).sum /
        (d.glist.map (share d.G one)).sum) := by
      show (if (d.glist.map (dShare d)).sum = 0 then none else some _) = _
      rw [hs', if_neg hS]; rfl
    rw [e]
    unfold weightedMean
    rw [hshare, hc]
    congr 3
    unfold effCells
    rw [List.map_map]
    exact List.map_congr_left fun e _ => by rw [dShare_eq, mul_comm]; rfl
  · have h := weightedMean_deriv d.G one (effCells E) j A hA (fun _ _ => true) (by rw [hshare]; exact hS)
    refine h.congr_deriv ?_
    unfold meanIF
    rw [hshare, hc]
    have hco : cohorts (effCells E) (fun _ => true) = d.glist := by
      unfold cohorts
      rw [hc, ← hlab]
      unfold effCells
      rw [List.map_map]; rfl
    rw [hco]
    show _ = (E.map fun e => e.psi j * (dShare d e.label / (d.glist.map (dShare d)).sum)).sum +
      (E.map fun e => dWif d e.label j * e.att.getD 0).sum
    rw [hs']
    congr 1
    · rw [← Agg.sum_div_list]
      unfold effCells
      rw [List.map_map]
      congr 1
      refine List.map_congr_left fun e _ => ?_
      simp only [Function.comp_apply]
      rw [dShare_eq]; ring
    · unfold effCells
      rw [List.map_map]
      congr 1
      refine List.map_congr_left fun e _ => ?_
      simp only [Function.comp_apply]
      congr 1
      unfold shareIF dWif
      simp only
      rw [hs']
      have e1 : ∀ h : ℤ, dShare d h = share d.G one h := fun _ => rfl
      simp only [e1]
      have e2 : ∀ h : ℤ, (if d.G j = (h : WithTop ℤ) then (one j : ℝ) else 0) = if d.G j = (h : WithTop ℤ) then 1 else 0 :=
        fun _ => rfl
      simp only [e2]
      ring

/-- Two cohorts of one unit each with effects 1 and 2 in period 3 and no sampling error in the cells. -/
noncomputable def exTwo : DIn (Fin 2) ℝ where
  cells := [⟨2, 3, 1, fun _ => 0⟩, ⟨3, 3, 2, fun _ => 0⟩]
  glist := [2, 3]
  tlist := [1, 2, 3]
  G := ![((2 : ℤ) : WithTop ℤ), ((3 : ℤ) : WithTop ℤ)]

lemma exTwo_labelled : Labelled exTwo := by
  refine ⟨fun c hc => ?_, fun c hc => ?_, by decide⟩
  all_goals
    simp only [exTwo, List.mem_cons, List.not_mem_nil, or_false] at hc
    rcases hc with rfl | rfl <;> simp [exTwo]

lemma exTwo_share : share exTwo.G one 2 = (1 / 2 : ℝ) ∧ share exTwo.G one 3 = (1 / 2 : ℝ) := by
  constructor <;>
  · unfold share
    rw [Fin.sum_univ_two]
    have h1 : exTwo.G 0 = ((2 : ℤ) : WithTop ℤ) := rfl
    have h2 : exTwo.G 1 = ((3 : ℤ) : WithTop ℤ) := rfl
    rw [h1, h2]
    simp only [WithTop.coe_inj, one]
    norm_num

lemma exTwo_post : exTwo.cells.filter post = exTwo.cells := by
  rw [List.filter_eq_self]
  intro c hc
  simp only [exTwo, List.mem_cons, List.not_mem_nil, or_false] at hc
  rcases hc with rfl | rfl <;> simp [post]

/-- **C79 (violated).** In a concrete input the overall effect responds to the weight of each unit, while the influence
value reported by the simple aggregation is zero for every unit (so its analytic standard error is zero, which is reported as missing). -/
theorem C79_simple_violated :
    (∀ i, (dSimple none exTwo).2 i = 0) ∧
    HasDerivAt (fun t => weightedMean exTwo.G (DR.upw one 0 t) exTwo.cells post) (-(1 / 2)) 0 := by
  have hS : totalShare exTwo.G one exTwo.cells post = (1 : ℝ) := by
    unfold totalShare
    rw [exTwo_post]
    simp only [exTwo, List.map_cons, List.map_nil, List.sum_cons, List.sum_nil]
    have := exTwo_share
    unfold exTwo at this
    rw [this.1, this.2]; norm_num
  have hz : ∀ i, (dSimple none exTwo).2 i = 0 := by
    intro i
    show dPsi exTwo _ i = 0
    unfold dPsi
    refine List.sum_eq_zero fun x hx => ?_
    rw [List.mem_map] at hx
    obtain ⟨c, hc, rfl⟩ := hx
    have hc' := (List.mem_filter.1 hc).1
    simp only [exTwo, List.mem_cons, List.not_mem_nil, or_false] at hc'
    rcases hc' with rfl | rfl <;> simp
  refine ⟨hz, ?_⟩
  have h := C79_simple_gap exTwo exTwo_labelled (by rw [hS]; exact one_ne_zero) 0 (fun c _ => c.att)
    ⟨fun _ _ => rfl, fun c hc => by
      have : c.psi 0 = 0 := by
        simp only [exTwo, List.mem_cons, List.not_mem_nil, or_false] at hc
        rcases hc with rfl | rfl <;> rfl
      rw [this]; exact hasDerivAt_const _ _⟩
  have hm : ∀ t, moved (fun (c : Cell (Fin 2) ℝ) _ => c.att) t exTwo.cells = exTwo.cells := by
    intro t; unfold moved; conv_rhs => rw [← List.map_id exTwo.cells]
    exact List.map_congr_left fun c _ => rfl
  simp only [hm] at h
  refine h.congr_deriv ?_
  rw [hz, zero_add]
  unfold sharePart
  rw [exTwo_post]
  have hco : cohorts exTwo.cells post = [2, 3] := by unfold cohorts; rw [exTwo_post]; rfl
  rw [hco]
  have h0 : exTwo.G 0 = ((2 : ℤ) : WithTop ℤ) := rfl
  have e : ∀ g, shareIF exTwo.G one [2, 3] g 0 = ((if g = 2 then 1 else 0) - share exTwo.G one g : ℝ) := by
    intro g
    unfold shareIF
    simp only [List.map_cons, List.map_nil, List.sum_cons, List.sum_nil, h0, WithTop.coe_inj, one]
    have e1 := exTwo_share.1
    have e2 := exTwo_share.2
    rw [e1, e2]
    by_cases hg : g = 2
    · subst hg; norm_num
    · rw [if_neg (fun h => hg h.symm), if_neg hg]; norm_num
  have hcells : exTwo.cells = [⟨2, 3, 1, fun _ => 0⟩, ⟨3, 3, 2, fun _ => 0⟩] := rfl
  rw [hcells]
  simp only [List.map_cons, List.map_nil, List.sum_cons, List.sum_nil, e, exTwo_share.1, exTwo_share.2]
  norm_num

end Verif.Triple
