import Verif.Triple.AggModel
import Verif.Triple.MultiProps
import Verif.Agg.Deriv
import Mathlib.Data.Fin.VecNotation

/-!
# Aggregation of triple differences: C54 (which cohorts are averaged) and C79 (estimated shares)

The specification (`share`, `weightedMean`, `plainMean`, `post`, …) is the one of `Verif.Agg.Spec`, with unit weights.
-/

set_option linter.unusedSectionVars false
set_option linter.unusedSimpArgs false

namespace Verif.Triple

open Verif.Agg (Cell Eff share totalShare weightedMean plainMean post atEvent atPeriod ofCohort shareIF meanIF moved CellPaths)

variable {ι K : Type*} [Fintype ι] [Field K]

/-- Unit weights. -/
def one : ι → K := fun _ => 1

/-- Labels of the cells are cohorts and periods of the data, the cohorts being listed once. -/
structure Labelled (d : DIn ι K) : Prop where
  g : ∀ c ∈ d.cells, c.g ∈ d.glist
  t : ∀ c ∈ d.cells, c.t ∈ d.tlist
  nodup : d.glist.Nodup

lemma dShare_eq (d : DIn ι K) (g : ℤ) : dShare d g = share d.G one g := rfl

lemma dLookup_pairwise (d : DIn ι K) : (dLookup d).Pairwise (· < ·) := Agg.uniqueSorted_pairwise _

lemma mem_dLookup (d : DIn ι K) (x : ℤ) : x ∈ dLookup d ↔ x ∈ d.tlist ∨ x ∈ d.glist := by
  unfold dLookup; rw [Agg.mem_uniqueSorted, List.mem_append]

lemma pgObs_eq {d : DIn ι K} (hd : Labelled d) {c : Cell ι K} (hc : c ∈ d.cells) : pgObs d c = share d.G one c.g := by
  unfold pgObs; rw [if_pos (hd.g c hc)]; rfl

lemma dSum_eq {d : DIn ι K} (hd : Labelled d) (p : Cell ι K → Bool) :
    dSum d (d.cells.filter p) = totalShare d.G one d.cells p := by
  unfold dSum totalShare
  congr 1
  exact List.map_congr_left fun c hc => pgObs_eq hd (List.mem_filter.1 hc).1

lemma dMean_eq [DecidableEq K] {d : DIn ι K} (hd : Labelled d) (p : Cell ι K → Bool)
    (hS : totalShare d.G one d.cells p ≠ 0) :
    dMean d (d.cells.filter p) = some (weightedMean d.G one d.cells p) := by
  unfold dMean weightedMean
  rw [dSum_eq hd, if_neg hS]
  congr 3
  refine List.map_congr_left fun c hc => ?_
  rw [pgObs_eq hd (List.mem_filter.1 hc).1, mul_comm]

/-- What is reported as influence value of a share-weighted mean: the combination of the cells' influence values. -/
lemma dPsi_eq {d : DIn ι K} (hd : Labelled d) (p : Cell ι K → Bool) (i : ι) :
    dPsi d (d.cells.filter p) i =
      ((d.cells.filter p).map fun c => share d.G one c.g * c.psi i).sum / totalShare d.G one d.cells p := by
  unfold dPsi
  rw [dSum_eq hd, ← Agg.sum_div_list]
  congr 1
  refine List.map_congr_left fun c hc => ?_
  rw [pgObs_eq hd (List.mem_filter.1 hc).1]; ring

lemma dPost_none {d : DIn ι K} (hd : Labelled d) {c : Cell ι K} (hc : c ∈ d.cells) : dPost none d c = post c := by
  unfold dPost post Agg.withinMax
  rw [Bool.and_true]
  congr 1
  exact propext (Agg.code_le (dLookup_pairwise d) ((mem_dLookup d _).2 (.inr (hd.g c hc)))
    ((mem_dLookup d _).2 (.inl (hd.t c hc))))

/-- **C54 (simple).** The overall effect is the share-weighted mean of the post-treatment cells. -/
theorem C54_simple [DecidableEq K] (d : DIn ι K) (hd : Labelled d) (hS : totalShare d.G one d.cells post ≠ 0) :
    (dSimple none d).1 = some (weightedMean d.G one d.cells post) := by
  unfold dSimple
  have : d.cells.filter (dPost none d) = d.cells.filter post := List.filter_congr fun c hc => dPost_none hd hc
  simp only [this]
  exact dMean_eq hd post hS

lemma group_kept {d : DIn ι K} (hd : Labelled d) {g : ℤ} (hg : g ∈ d.glist) :
    (d.cells.filter fun c => decide (Agg.code (dLookup d) c.g = Agg.code (dLookup d) g) && dPost none d c) =
      d.cells.filter (ofCohort g) := by
  refine List.filter_congr fun c hc => ?_
  rw [dPost_none hd hc]
  unfold post ofCohort
  rw [← Bool.decide_and, decide_eq_decide,
    Agg.code_inj (dLookup_pairwise d) ((mem_dLookup d _).2 (.inr (hd.g c hc))) ((mem_dLookup d _).2 (.inr hg))]
  constructor
  · rintro ⟨rfl, h⟩; exact ⟨rfl, h⟩
  · rintro ⟨rfl, h⟩; exact ⟨rfl, h⟩

/-- **C54 (cohort effects).** There is one effect per listed cohort: the plain mean of its post-treatment cells, missing
if there are none. -/
theorem C54_group_effects [DecidableEq K] (d : DIn ι K) (hd : Labelled d) :
    (dGroup none d).effects.map Eff.label = d.glist ∧
    ∀ x ∈ (dGroup none d).effects, x.att =
      if d.cells.filter (ofCohort x.label) = [] then none
      else some (plainMean ((d.cells.filter (ofCohort x.label)).map Cell.att)) := by
  have hlab : ∀ g, (dGroupEff none d g).label = g := fun g => by unfold dGroupEff; simp only; split_ifs <;> rfl
  constructor
  · unfold dGroup
    simp only [List.map_map]
    conv_rhs => rw [← List.map_id d.glist]
    exact List.map_congr_left fun g _ => hlab g
  · intro x hx
    unfold dGroup at hx
    simp only [List.mem_map] at hx
    obtain ⟨g, hg, rfl⟩ := hx
    rw [hlab]
    unfold dGroupEff
    simp only [group_kept hd hg]
    by_cases h : d.cells.filter (ofCohort g) = []
    · simp [h]
    · rw [if_neg (by simpa using h), if_neg h]
      simp [plainMean]

/-- Spec: total share of the cohorts that do have an effect. -/
def estimatedShare (G : ι → WithTop ℤ) (effs : List (Eff ι K)) : K :=
  ((effs.filter fun e => e.att.isSome).map fun e => share G one e.label).sum

/-- Spec: share-weighted mean of the effects that exist. -/
def meanOfEstimated (G : ι → WithTop ℤ) (effs : List (Eff ι K)) : K :=
  ((effs.filter fun e => e.att.isSome).map fun e => share G one e.label * e.att.getD 0).sum / estimatedShare G effs

lemma sum_filter_some (effs : List (Eff ι K)) (f : Eff ι K → K) (h : ∀ e ∈ effs, e.att = none → f e = 0) :
    (effs.map f).sum = ((effs.filter fun e => e.att.isSome).map f).sum := by
  induction effs with
  | nil => rfl
  | cons a l ih =>
    have ih' := ih fun e he => h e (List.mem_cons_of_mem _ he)
    cases ha : a.att with
    | none => simp [List.filter_cons, ha, ih', h a (List.mem_cons_self ..) ha]
    | some v => simp [List.filter_cons, ha, ih']

/-- **C54 (what is reported).** The overall group effect is the share-weighted mean of the cohort effects that exist,
multiplied by the fraction of all listed cohorts' share that they make up. -/
theorem C54_group_overall [DecidableEq K] (d : DIn ι K) (hd : Labelled d)
    (hE : estimatedShare d.G (dGroup none d).effects ≠ 0) (hS : (d.glist.map (share d.G one)).sum ≠ (0 : K)) :
    (dGroup none d).overall = some (meanOfEstimated d.G (dGroup none d).effects *
      (estimatedShare d.G (dGroup none d).effects / (d.glist.map (share d.G one)).sum)) := by
  have e : (dGroup none d).overall = some (((dGroup none d).effects.map fun e => e.att.getD 0 * dShare d e.label).sum /
      (d.glist.map (share d.G one)).sum) := by
    show (if (d.glist.map (dShare d)).sum = 0 then none else some _) = _
    have : (d.glist.map (dShare d)).sum = (d.glist.map (share d.G one)).sum := rfl
    rw [this, if_neg hS]; rfl
  rw [e, sum_filter_some _ _ (fun x _ h => by rw [h]; simp)]
  unfold meanOfEstimated
  congr 1
  have : ∀ l : List (Eff ι K), (l.map fun e => e.att.getD 0 * dShare d e.label).sum =
      (l.map fun e => share d.G one e.label * e.att.getD 0).sum := by
    intro l; congr 1; exact List.map_congr_left fun e _ => by rw [dShare_eq, mul_comm]
  rw [this]
  field_simp

/-- **C54 (complete case).** If every listed cohort has a post-treatment cell, the overall effect is the share-weighted
mean of the cohort effects. -/
theorem C54_group_complete [DecidableEq K] (d : DIn ι K) (hd : Labelled d)
    (hall : ∀ g ∈ d.glist, ∃ c ∈ d.cells, c.g = g ∧ g ≤ c.t)
    (hS : (d.glist.map (share d.G one)).sum ≠ (0 : K)) :
    (dGroup none d).overall = some (meanOfEstimated d.G (dGroup none d).effects) := by
  have hsome : ∀ x ∈ (dGroup none d).effects, x.att.isSome = true := by
    intro x hx
    rw [(C54_group_effects d hd).2 x hx, if_neg]
    · rfl
    · have hl : x.label ∈ d.glist := by
        rw [← (C54_group_effects d hd).1]; exact List.mem_map_of_mem hx
      obtain ⟨c, hc, h1, h2⟩ := hall _ hl
      intro hnil
      have : c ∈ d.cells.filter (ofCohort x.label) :=
        List.mem_filter.2 ⟨hc, by unfold ofCohort; rw [decide_eq_true_eq]; exact ⟨h1, h2⟩⟩
      rw [hnil] at this; simp at this
  have he : estimatedShare d.G (dGroup none d).effects = (d.glist.map (share d.G one)).sum := by
    unfold estimatedShare
    rw [List.filter_eq_self.2 hsome, ← (C54_group_effects d hd).1, List.map_map]; rfl
  rw [C54_group_overall d hd (by rw [he]; exact hS) hS, he, div_self hS, mul_one]

lemma dropMissing_labelled (d : DIn ι K) (hd : Labelled d) (b : Bool) : Labelled (dropMissing b d) where
  g := fun c hc => by
    unfold dropMissing at hc ⊢
    simp only at hc ⊢
    rw [Agg.mem_uniqueSorted]
    exact List.mem_map_of_mem hc
  t := fun c hc => by
    unfold dropMissing at hc ⊢
    simp only at hc ⊢
    split_ifs at hc
    · exact hd.t c (List.mem_filter.1 hc).1
    · exact hd.t c hc
  nodup := (Agg.uniqueSorted_pairwise _).imp fun h => h.ne

/-- **C54 (dropna).** With `dropna=True` the overall effect is the share-weighted mean of the estimated cohorts' effects,
whatever cells are missing. -/
theorem C54_group_dropna [DecidableEq K] (d : DIn ι K) (hd : Labelled d)
    (hS : ((dropMissing true d).glist.map (share d.G one)).sum ≠ (0 : K)) :
    (dGroup none (dropMissing true d)).overall =
      some (meanOfEstimated d.G (dGroup none (dropMissing true d)).effects) := by
  refine C54_group_complete (dropMissing true d) (dropMissing_labelled d hd true) (fun g hg => ?_) hS
  unfold dropMissing at hg ⊢
  simp only [if_true] at hg ⊢
  rw [Agg.mem_uniqueSorted, List.mem_map] at hg
  obtain ⟨c, hc, rfl⟩ := hg
  rw [List.mem_filter, List.any_eq_true] at hc
  obtain ⟨hc, c', hc', h⟩ := hc
  rw [Bool.and_eq_true, decide_eq_true_eq, decide_eq_true_eq] at h
  refine ⟨c', List.mem_filter.2 ⟨hc', ?_⟩, h.1, by rw [← h.1]; exact h.2⟩
  rw [List.any_eq_true]
  exact ⟨c', hc', by simp [h.2]⟩

/-- The result of the run `exData` (cohort 1 treated from the first period on, cohort 3, never treated), aggregated. -/
def exAgg : Option (Option ℚ × List (Option ℚ)) :=
  (dddMp exInv exEst false false exData).map fun r =>
    ((dGroup none (toDIn r)).overall, (dGroup none (toDIn r)).effects.map Eff.att)

def exAggDrop : Option (Option ℚ × List (Option ℚ)) :=
  (dddMp exInv exEst false false exData).map fun r =>
    ((dGroup none (dropMissing true (toDIn r))).overall, (dGroup none (dropMissing true (toDIn r))).effects.map Eff.att)

/-- **C54 (violated).** By default a cohort treated from the first period on enters the overall group effect with effect
zero: the only estimated cohort has effect 9/2, the reported overall effect is half of it (with `dropna=True` it is 9/2). -/
theorem C54_missing_cohort_violated :
    exAgg = some (some (9 / 4), [none, some (9 / 2)]) ∧ exAggDrop = some (some (9 / 2), [some (9 / 2)]) := by
  decide +kernel

/-- **C54 (event study).** Every effect is the share-weighted mean of the cells at its event time. -/
theorem C54_event [DecidableEq K] (d : DIn ι K) (hd : Labelled d) (minE maxE : Option ℤ) :
    ∀ x ∈ (dEvent minE maxE d).effects, totalShare d.G one d.cells (atEvent x.label) ≠ 0 →
      x.att = some (weightedMean d.G one d.cells (atEvent x.label)) ∧
      ∀ i, x.psi i = ((d.cells.filter (atEvent x.label)).map fun c => share d.G one c.g * c.psi i).sum /
        totalShare d.G one d.cells (atEvent x.label) := by
  intro x hx
  unfold dEvent at hx
  simp only [List.mem_map] at hx
  obtain ⟨e, _, rfl⟩ := hx
  have hl : (dEff d e (d.cells.filter fun c => decide (c.t - c.g = e))).label = e := by
    unfold dEff; split_ifs <;> rfl
  rw [hl]
  intro hS
  have hne : (d.cells.filter (atEvent e)) ≠ [] := by
    intro h; apply hS; unfold totalShare; rw [h]; rfl
  show (dEff d e (d.cells.filter (atEvent e))).att = _ ∧ ∀ i, (dEff d e (d.cells.filter (atEvent e))).psi i = _
  unfold dEff
  rw [if_neg (by simpa using hne)]
  exact ⟨dMean_eq hd _ hS, fun i => dPsi_eq hd _ i⟩

/-- **C54 (calendar).** Every effect is the share-weighted mean of the post-treatment cells of its period. -/
theorem C54_calendar [DecidableEq K] (d : DIn ι K) (hd : Labelled d) :
    ∀ x ∈ (dCalendar d).effects, totalShare d.G one d.cells (atPeriod x.label) ≠ 0 →
      x.att = some (weightedMean d.G one d.cells (atPeriod x.label)) ∧
      ∀ i, x.psi i = ((d.cells.filter (atPeriod x.label)).map fun c => share d.G one c.g * c.psi i).sum /
        totalShare d.G one d.cells (atPeriod x.label) := by
  intro x hx
  unfold dCalendar at hx
  simp only [List.mem_map, List.mem_filter] at hx
  obtain ⟨n, ⟨⟨z, hz, rfl⟩, _⟩, rfl⟩ := hx
  rw [Agg.mem_uniqueSorted, List.mem_map] at hz
  obtain ⟨c0, hc0, rfl⟩ := hz
  have hs := dLookup_pairwise d
  have ht0 : c0.t ∈ dLookup d := (mem_dLookup d _).2 (.inl (hd.t c0 hc0))
  simp only [Int.toNat_natCast]
  rw [Agg.t2orig_code hs ht0]
  have hf : (d.cells.filter fun c => decide (Agg.code (dLookup d) c.t = Agg.code (dLookup d) c0.t) &&
      decide (Agg.code (dLookup d) c.g ≤ Agg.code (dLookup d) c.t)) = d.cells.filter (atPeriod c0.t) := by
    refine List.filter_congr fun c hc => ?_
    unfold atPeriod
    rw [← Bool.decide_and, decide_eq_decide, Agg.code_inj hs ((mem_dLookup d _).2 (.inl (hd.t c hc))) ht0,
      Agg.code_le hs ((mem_dLookup d _).2 (.inr (hd.g c hc))) ((mem_dLookup d _).2 (.inl (hd.t c hc)))]
    constructor
    · rintro ⟨h1, h2⟩; exact ⟨h1, h1 ▸ h2⟩
    · rintro ⟨h1, h2⟩; exact ⟨h1, h1 ▸ h2⟩
  rw [hf]
  have hl : (dEff d c0.t (d.cells.filter (atPeriod c0.t))).label = c0.t := by unfold dEff; split_ifs <;> rfl
  rw [hl]
  intro hS
  have hne : (d.cells.filter (atPeriod c0.t)) ≠ [] := by
    intro h; apply hS; unfold totalShare; rw [h]; rfl
  unfold dEff
  rw [if_neg (by simpa using hne)]
  exact ⟨dMean_eq hd _ hS, fun i => dPsi_eq hd _ i⟩

end Verif.Triple
