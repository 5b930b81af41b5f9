import Verif.Triple.Entry
import Verif.Triple.Scale
import Verif.Triple.Gmm

/-!
# Triple differences on repeated cross-sections with several periods: C212-C214

`moderndid/didtriple/estimators/ddd_mp_rc.py`.  Rows and cells as in `Multi.lean`; the role of the unit is played by the
row number.  Not modelled: bootstrap, confidence limits, the threshold turning tiny standard errors into NaN.
-/

set_option linter.unusedSectionVars false
set_option linter.unusedSimpArgs false

namespace Verif.Triple

variable {K : Type*} [Field K]

/-- `_obs_idx`, `ddd_mp_rc.py:229`: row numbers replace the units (`_id_col` is not used, line 356). -/
def indexed (data : List (Row K)) : List (Row K) := data.zipIdx.map fun p => { p.1 with id := p.2 }

/-- What `ddd_rc` is called with: rows with post indicator and subgroup, `ddd_mp_rc.py:571-607`; `none` stands for its own
errors. -/
abbrev EstimatorRC (K : Type*) := List (Row K × Bool × ℕ) → Option (K × List K)

/-- `_compute_single_ddd_rc`, `ddd_mp_rc.py:567-610`: estimate, influence values, row numbers. -/
def singleRC (est : EstimatorRC K) (g t : ℤ) (rows : List (Row K)) : Option (K × List K × List ℕ) :=
  if ¬ rows.any (fun r => decide (subgroupOf g r = 4)) then none
  else match est (rows.map fun r => (r, decide (r.time = t), subgroupOf g r)) with
    | none => none
    | some (a, f) => some (a, f, rows.map Row.id)

/-- `_process_multiple_controls_rc`, `ddd_mp_rc.py:514-564`. -/
def multiControlsRC (inv : ∀ m, (Fin m → Fin m → K) → Fin m → Fin m → K) (est : EstimatorRC K) (g t : ℤ)
    (controls : List (Option ℤ)) (cell : List (Row K)) (nObs : ℕ) : Option (K × (List ℕ × List K) × K) :=
  let res := controls.filterMap fun c =>
    singleRC est g t (cell.filter fun r => decide (r.g = some g) || decide (r.g = c))
  if res.isEmpty then none
  else
    let cellIds := cell.map Row.id
    let out := gmm (inv res.length) (fun a : Fin res.length => res[a].1)
      (fun (i : Fin cellIds.length) (a : Fin res.length) => placed cellIds res[a].2.1 res[a].2.2 i) nObs
    some (out.1, (cellIds, (List.finRange cellIds.length).map fun i =>
      ((nObs : K) / (cellIds.length : K)) * out.2.1 i), out.2.2)

/-- `_process_gt_cell_rc`, `ddd_mp_rc.py:346-442` (`_process_single_control_rc`, lines 487-511, inlined). -/
def processCellRC (inv : ∀ m, (Fin m → Fin m → K) → Fin m → Fin m → K) (est : EstimatorRC K) (universal notyet : Bool)
    (data : List (Row K)) (g t : ℤ) (tIdx : ℕ) : Option (CellOut K) :=
  match pretOf universal (tlistOf data) g t tIdx with
  | none => none
  | some pret =>
    if universal && decide (pret = t) then some ⟨g, t, 0, none, none⟩
    else
      let cell := cellData notyet g t pret data
      let nObs := data.length
      match availableControls g cell with
      | [] => none
      | [_] => (singleRC est g t cell).map fun r =>
          ⟨g, t, r.1, some (r.2.2, r.2.1.map fun v => ((nObs : K) / (cell.length : K)) * v), none⟩
      | cs => (multiControlsRC inv est g t cs cell nObs).map fun r => ⟨g, t, r.1, some r.2.1, some r.2.2⟩

/-- `ddd_mp_rc`, `ddd_mp_rc.py:213-343` (analytic standard errors). -/
def dddMpRC (inv : ∀ m, (Fin m → Fin m → K) → Fin m → Fin m → K) (est : EstimatorRC K) (universal notyet : Bool)
    (data : List (Row K)) : Option (MpResult K) :=
  assemble (indexed data) ((attempts universal (indexed data)).map fun a =>
    processCellRC inv est universal notyet (indexed data) a.1 a.2.1 a.2.2)

/-! ## C212 -/

/-- **C212 (subgroups).** The estimator of a comparison is called with exactly the rows of the comparison, in order, the
post indicator being the period of the cell, and the subgroup 4, 3 (cohort of the cell, eligible or not) or 2, 1 (others). -/
theorem C212_rows_handed_over (est : EstimatorRC K) (g t : ℤ) (rows : List (Row K)) (x : K × List K × List ℕ)
    (h : singleRC est g t rows = some x) :
    ∃ l : List (Row K × Bool × ℕ), est l = some (x.1, x.2.1) ∧ l.map (fun e => e.1) = rows ∧ x.2.2 = rows.map Row.id ∧
      ∀ e ∈ l, (e.2.1 = true ↔ e.1.time = t) ∧
        (e.2.2 = 4 ↔ e.1.g = some g ∧ e.1.elig = true) ∧ (e.2.2 = 3 ↔ e.1.g = some g ∧ e.1.elig = false) ∧
        (e.2.2 = 2 ↔ e.1.g ≠ some g ∧ e.1.elig = true) ∧ (e.2.2 = 1 ↔ e.1.g ≠ some g ∧ e.1.elig = false) := by
  unfold singleRC at h
  by_cases h4 : ¬ rows.any (fun r => decide (subgroupOf g r = 4)) = true
  · rw [if_pos h4] at h; cases h
  · rw [if_neg h4] at h
    split at h
    · cases h
    · rename_i a f he
      cases h
      refine ⟨_, he, by rw [List.map_map]; exact List.map_id _, rfl, ?_⟩
      intro e he'
      obtain ⟨r, hr, rfl⟩ := List.mem_map.1 he'
      refine ⟨by simp, ?_⟩
      dsimp only
      unfold subgroupOf
      by_cases hg : r.g = some g <;> cases hel : r.elig <;> simp [hg, hel]

lemma availableControls_ne (g : ℤ) (cell : List (Row K)) (x : Option ℤ) (hx : x ∈ availableControls g cell) :
    x ≠ some g := by
  unfold availableControls at hx
  rw [List.mem_dedup, List.mem_map] at hx
  obtain ⟨r, hr, rfl⟩ := hx
  simpa using (List.mem_filter.1 hr).2

lemma comparison_single (g : ℤ) (cell : List (Row K)) (c0 : Option ℤ) (h : availableControls g cell = [c0]) :
    comparison g c0 cell = cell := by
  unfold comparison
  rw [List.filter_eq_self]
  intro r hr
  by_cases hg : r.g = some g
  · simp [hg]
  · have : r.g ∈ availableControls g cell := by
      unfold availableControls
      rw [List.mem_dedup]
      exact List.mem_map_of_mem (List.mem_filter.2 ⟨hr, by simpa using hg⟩)
    rw [h, List.mem_singleton] at this
    simp [this]

lemma singleRC_ids (est : EstimatorRC K) (g t : ℤ) (rows : List (Row K)) (x : K × List K × List ℕ)
    (h : singleRC est g t rows = some x) : x.2.2 = rows.map Row.id := by
  obtain ⟨_, _, _, h3, _⟩ := C212_rows_handed_over est g t rows x h
  exact h3

/-- **C212 (influence values of a cell).** The estimate of a cell is a weighted sum of the estimates of its comparisons,
each made of the rows, in the two periods, of the cohort and of one comparison cohort, and with the same weights the influence
value of every row is the weighted sum of its influence values in the comparisons, each rescaled by (rows of the data) /
(rows of that comparison).  With a single comparison its weight is one. -/
theorem C212_cell_influence [CharZero K] (inv : ∀ m, (Fin m → Fin m → K) → Fin m → Fin m → K) (est : EstimatorRC K)
    (universal notyet : Bool) (data : List (Row K)) (g t : ℤ) (i : ℕ) (c : CellOut K)
    (h : processCellRC inv est universal notyet data g t i = some c) (hi : c.inf.isSome = true) :
    ∃ (pret : ℤ) (comps : List (Option ℤ × K × List K × List ℕ)) (w : Fin comps.length → K),
      pretOf universal (tlistOf data) g t i = some pret ∧ comps ≠ [] ∧
      (∀ x ∈ comps, x.1 ≠ some g ∧ singleRC est g t (comparison g x.1 (cellData notyet g t pret data)) = some x.2) ∧
      c.att = ∑ a, w a * comps[a].2.1 ∧
      (∀ u, ownIF c u = ∑ a, w a * rescaled data.length comps[a].2 u) ∧
      (c.se2 = none → comps.length = 1 ∧ ∀ a, w a = 1) := by
  unfold processCellRC at h
  split at h
  · cases h
  · rename_i pret hp
    refine ⟨pret, ?_⟩
    split_ifs at h with hu
    · cases h; cases hi
    · simp only at h
      obtain ⟨cell, hcell⟩ : ∃ l, l = cellData notyet g t pret data := ⟨_, rfl⟩
      rw [← hcell] at h ⊢
      split at h
      · cases h
      · rename_i c0 hc0
        rw [Option.map_eq_some_iff] at h
        obtain ⟨x, hx, rfl⟩ := h
        refine ⟨[(c0, x)], fun _ => 1, hp, by simp, ?_, by simp, ?_, by simp⟩
        · intro y hy
          rw [List.mem_singleton] at hy
          subst hy
          exact ⟨availableControls_ne g cell _ (by rw [hc0]; simp), by rw [comparison_single g cell c0 hc0]; exact hx⟩
        · intro u
          unfold ownIF rescaled
          have hl : x.2.2.length = cell.length := by rw [singleRC_ids est g t cell x hx, List.length_map]
          simp only [column_map_scale, ← hl]
          simp
      · rename_i cs _ _
        rw [Option.map_eq_some_iff] at h
        obtain ⟨x, hx, rfl⟩ := h
        unfold multiControlsRC at hx
        simp only at hx
        split_ifs at hx with hemp
        cases hx
        set ctrls := availableControls g cell with hctrls
        set comps : List (Option ℤ × K × List K × List ℕ) := ctrls.filterMap fun k =>
          (singleRC est g t (comparison g k cell)).map fun x => (k, x) with hcomps
        have hres : (ctrls.filterMap fun k => singleRC est g t
            (cell.filter fun r => decide (r.g = some g) || decide (r.g = k))) = comps.map Prod.snd := by
          rw [hcomps, List.map_filterMap]
          congr 1
          funext k
          show _ = Option.map _ (Option.map _ _)
          rw [Option.map_map]
          unfold comparison
          simp [Function.comp_def]
        set res := ctrls.filterMap fun k => singleRC est g t
            (cell.filter fun r => decide (r.g = some g) || decide (r.g = k)) with hresdef
        have hlen : comps.length = res.length := by rw [hres, List.length_map]
        have hget : ∀ a : Fin comps.length, comps[a].2 = res[Fin.cast hlen a] := by
          intro a
          simp only [Fin.getElem_fin, Fin.val_cast, hres, List.getElem_map]
        have hcmem : ∀ y ∈ comps, y.1 ∈ ctrls ∧ singleRC est g t (comparison g y.1 cell) = some y.2 := by
          intro y hy
          rw [hcomps, List.mem_filterMap] at hy
          obtain ⟨k, hk, hy⟩ := hy
          rw [Option.map_eq_some_iff] at hy
          obtain ⟨z, hz, rfl⟩ := hy
          exact ⟨hk, hz⟩
        set cellIds := cell.map Row.id with hcids
        set W := gmmW (inv res.length (cov fun (i : Fin cellIds.length) (a : Fin res.length) =>
          placed cellIds res[a].2.1 res[a].2.2 i)) with hW
        refine ⟨comps, fun a => W (Fin.cast hlen a), hp, ?_, ?_, ?_, ?_, by simp⟩
        · intro h0
          rw [h0, List.map_nil] at hres
          exact hemp (by rw [hres]; rfl)
        · intro y hy
          exact ⟨availableControls_ne g cell _ (hcmem y hy).1, (hcmem y hy).2⟩
        · show (∑ a, W a * (res[a]).1) = _
          refine (Fintype.sum_equiv (finCongr hlen) _ _ fun a => ?_).symm
          rw [hget]; rfl
        · intro u
          unfold ownIF
          simp only
          by_cases hmem : u ∈ cellIds
          · obtain ⟨i, hi1, hi2⟩ := column_finRange cellIds (fun i =>
              ((data.length : K) / (cellIds.length : K)) * (∑ a, placed cellIds res[a].2.1 res[a].2.2 i * W a)) hmem
            refine Eq.trans hi2 ?_
            have hne : (cellIds.length : K) ≠ 0 := by
              have : cellIds.length ≠ 0 := fun h0 => by
                have := i.2; omega
              exact_mod_cast this
            rw [Finset.mul_sum]
            refine (Fintype.sum_equiv (finCongr hlen) _ _ fun a => ?_).symm
            rw [placed_eq, hi1, hget]
            unfold rescaled
            simp only [finCongr_apply]
            field_simp
          · rw [column_not_mem _ _ _ hmem]
            symm
            refine Finset.sum_eq_zero fun a _ => ?_
            unfold rescaled
            rw [column_not_mem, mul_zero, mul_zero]
            intro hu'
            apply hmem
            have hmema : comps[a] ∈ comps := List.getElem_mem _
            rw [singleRC_ids est g t _ _ (hcmem _ hmema).2, List.mem_map] at hu'
            obtain ⟨r, hr, rfl⟩ := hu'
            exact List.mem_map_of_mem (List.mem_of_mem_filter hr)

/-- Plain mean of a subgroup in one of the two periods. -/
def exMeanRC (l : List (Row ℚ × Bool × ℕ)) (k : ℕ) (b : Bool) : ℚ :=
  let s := (l.filter fun p => p.2.2 = k && (p.2.1 == b)).map fun p => p.1.y
  s.sum / s.length

/-- Triple difference of means with the matching influence values. -/
def exEstRC : EstimatorRC ℚ := fun l =>
  some (((exMeanRC l 4 true - exMeanRC l 4 false) - (exMeanRC l 3 true - exMeanRC l 3 false)) -
      ((exMeanRC l 2 true - exMeanRC l 2 false) - (exMeanRC l 1 true - exMeanRC l 1 false)),
    l.map fun p => (l.length : ℚ) / ((l.filter fun q => q.2.2 = p.2.2 && (q.2.1 == p.2.1)).length : ℚ) *
      (if p.2.2 = 4 ∨ p.2.2 = 1 then 1 else -1) * (if p.2.1 then 1 else -1) * (p.1.y - exMeanRC l p.2.2 p.2.1))

example : ((processCellRC exInv exEstRC false true (indexed exData) 3 3 1).bind CellOut.inf).isSome = true := by
  decide +kernel

lemma indexed_ids (data : List (Row K)) : (indexed data).map Row.id = List.range data.length := by
  unfold indexed
  rw [List.map_map]
  have : (Row.id ∘ fun p : Row K × ℕ => ({ p.1 with id := p.2 } : Row K)) = Prod.snd := rfl
  rw [this, List.zipIdx_map_snd, List.range_eq_range']

lemma indexed_length (data : List (Row K)) : (indexed data).length = data.length := by
  unfold indexed; rw [List.length_map, List.length_zipIdx]

lemma idsOf_indexed (data : List (Row K)) : idsOf (indexed data) = List.range data.length := by
  unfold idsOf
  rw [indexed_ids, List.nodup_range.dedup]
  refine List.Pairwise.insertionSort_eq ?_
  exact List.pairwise_le_range

/-- **C212 (standard error of a single comparison).** The squared standard error reported for a cell with one comparison
cohort is the sum of the squared influence values of that comparison over the squared number of its rows, as the two-period
estimator would report with the plain mean of squares. -/
theorem C212_single_se [CharZero K] (inv : ∀ m, (Fin m → Fin m → K) → Fin m → Fin m → K) (est : EstimatorRC K)
    (universal notyet : Bool) (data : List (Row K)) (g t : ℤ) (i : ℕ) (c : CellOut K)
    (h : processCellRC inv est universal notyet (indexed data) g t i = some c) (hi : c.inf.isSome = true)
    (hs : c.se2 = none) (results : List (Option (CellOut K))) (k : ℕ) (hk : results[k]? = some (some c)) :
    ∃ (pret : ℤ) (ctrl : Option ℤ) (x : K × List K × List ℕ),
      singleRC est g t (comparison g ctrl (cellData notyet g t pret (indexed data))) = some x ∧ c.att = x.1 ∧
      reportedSe2 (idsOf (indexed data)) results k =
        ((List.range data.length).map fun u => column x.2.2 x.2.1 u ^ 2).sum / (x.2.2.length : K) ^ 2 := by
  obtain ⟨pret, comps, w, _, _, h1, h2, h3, h4⟩ := C212_cell_influence inv est universal notyet _ g t i c h hi
  obtain ⟨hlen, hw⟩ := h4 hs
  obtain ⟨x, rfl⟩ := List.length_eq_one_iff.1 hlen
  refine ⟨pret, x.1, x.2, (h1 x (by simp)).2, ?_, ?_⟩
  · rw [h2]; simp [hw]
  · rw [idsOf_indexed]
    unfold reportedSe2 seEntry
    simp only [hk, hs]
    have hcol : ∀ u, matCol results k u = rescaled data.length x.2 u := by
      intro u
      rw [matCol_attempt results k u c hk, h3 u, indexed_length]
      simp [hw]
    simp only [hcol, List.length_range]
    by_cases hn : data.length = 0
    · simp [hn]
    · have hN : (data.length : K) ≠ 0 := by exact_mod_cast hn
      have : ((List.range data.length).map fun u => rescaled data.length x.2 u * rescaled data.length x.2 u) =
          (List.range data.length).map fun u => ((data.length : K) ^ 2 / (x.2.2.2.length : K) ^ 2) * column x.2.2.2 x.2.2.1 u ^ 2 := by
        refine List.map_congr_left fun u _ => ?_
        unfold rescaled; ring
      rw [this, List.sum_map_mul_left]
      by_cases hx : (x.2.2.2.length : K) = 0
      · simp [hx]
      · field_simp

example : (processCellRC exInv exEstRC false false (indexed exData) 3 3 1).map (fun c => (c.se2.isNone, c.inf.isSome)) =
    some (true, true) := by decide +kernel

/-- **C212 (units are not used).** The result does not depend on the unit identifiers: relabelling, merging or splitting
units changes nothing, so rows of the same person count as independent observations. -/
theorem C212_ids_without_effect (inv : ∀ m, (Fin m → Fin m → K) → Fin m → Fin m → K) (est : EstimatorRC K)
    (universal notyet : Bool) (data : List (Row K)) (f : Row K → ℕ) :
    dddMpRC inv est universal notyet (data.map fun r => { r with id := f r }) = dddMpRC inv est universal notyet data := by
  have : indexed (data.map fun r => { r with id := f r }) = indexed data := by
    unfold indexed
    rw [List.zipIdx_map, List.map_map]
    rfl
  unfold dddMpRC
  rw [this]

/-- The entries of a result, comparable. -/
def attsRC (r : Option (MpResult ℚ)) : Option (List (ℤ × ℤ × ℚ)) := r.map fun r => r.entries.map fun c => (c.g, c.t, c.att)

example : (attsRC (dddMpRC exInv exEstRC false true exData)).isSome = true := by decide +kernel

/-- **C212 (alignment).** As for panels: without a gap among the cells, column `k` of the returned matrix is the influence
function of the `k`-th returned estimate. -/
theorem C212_aligned_without_gaps (inv : ∀ m, (Fin m → Fin m → K) → Fin m → Fin m → K) (est : EstimatorRC K)
    (universal notyet : Bool) (data : List (Row K)) (r : MpResult K)
    (hr : dddMpRC inv est universal notyet data = some r)
    (hgap : ∀ i j : ℕ, i < j → ((attempts universal (indexed data))[i]?.map fun a =>
        processCellRC inv est universal notyet (indexed data) a.1 a.2.1 a.2.2) = some none →
      ((attempts universal (indexed data))[j]?.map fun a =>
        processCellRC inv est universal notyet (indexed data) a.1 a.2.1 a.2.2) = some none ∨
      (attempts universal (indexed data))[j]? = none)
    (k : ℕ) (c : CellOut K) (hk : r.entries[k]? = some c) (u : ℕ) : r.mat k u = ownIF c u := by
  refine C51_aligned_without_gaps _ _ r hr ?_ k c hk u
  intro a b hab ha
  rw [List.getElem?_map] at ha ⊢
  rcases hgap a b hab ha with h | h
  · exact Or.inl h
  · right; rw [h]; rfl

/-- Entry 1 of the example: cohort 1 is treated from the first period on, so its cells are skipped. -/
def exCheckRC (k : ℕ) : Bool :=
  match dddMpRC exInv exEstRC false false exData with
  | none => false
  | some r => match r.entries[k]? with
    | none => false
    | some c => decide (c.g ≤ c.t) && r.ids.all (fun u => decide (r.mat k u = 0)) && decide (r.se2 k = 0) &&
        r.ids.any (fun u => decide (ownIF c u ≠ 0))

/-- **C212 (alignment, violated).** With a cohort treated from the first period on, the post-treatment estimate of another
cohort is returned with an influence column that is zero in every row and squared standard error 0, although its own
influence values are not zero. -/
theorem C212_zero_column_violated : ∃ (k : ℕ) (r : MpResult ℚ) (c : CellOut ℚ),
    dddMpRC exInv exEstRC false false exData = some r ∧ r.entries[k]? = some c ∧ c.g ≤ c.t ∧
    (∀ u ∈ r.ids, r.mat k u = 0) ∧ r.se2 k = 0 ∧ ∃ u ∈ r.ids, ownIF c u ≠ 0 := by
  have h : exCheckRC 1 = true := by decide +kernel
  unfold exCheckRC at h
  split at h
  · cases h
  · rename_i r hr
    split at h
    · cases h
    · rename_i c hc
      simp only [Bool.and_eq_true, decide_eq_true_eq, List.all_eq_true, List.any_eq_true] at h
      exact ⟨1, r, c, hr, hc, h.1.1.1, h.1.1.2, h.1.2, h.2⟩

/-! ## C213: several comparison cohorts -/

section Ordered
variable [LinearOrder K] [IsStrictOrderedRing K]

/-- Spec: influence values of the comparisons placed among the rows of the cell, one column per comparison. -/
def inMatrix (ids : List ℕ) (res : List (K × List K × List ℕ)) (i : Fin ids.length) (a : Fin res.length) : K :=
  placed ids res[a].2.1 res[a].2.2 i

/-- Core of C213 for given comparison results. -/
lemma combined_se_core (inv : ∀ m, (Fin m → Fin m → K) → Fin m → Fin m → K) (ids : List ℕ)
    (res : List (K × List K × List ℕ)) (n N : ℕ) (hn : 0 < n) (hN : 2 ≤ N) (hlen : ids.length = N) (hnd : ids.Nodup)
    (hinv : IsInverse (inv res.length (cov (inMatrix ids res))) (cov (inMatrix ids res))) (hemp : res ≠ [])
    (hmem : ∀ a : Fin res.length, res[a].2.2.Sublist ids ∧ res[a].2.1.length = res[a].2.2.length ∧ res[a].2.1.sum = 0) :
    let out := gmm (inv res.length) (fun a : Fin res.length => res[a].1)
      (fun (i : Fin ids.length) (a : Fin res.length) => placed ids res[a].2.1 res[a].2.2 i) n
    out.2.2 = ((ids.map fun u => column ids ((List.finRange ids.length).map fun i =>
        ((n : K) / (ids.length : K)) * out.2.1 i) u ^ 2).sum / (n : K)) / (n : K) *
      ((N : K) ^ 2 / (((N : K) - 1) * (n : K))) := by
  intro out
  haveI : Nonempty (Fin res.length) := ⟨⟨0, by
    rcases Nat.eq_zero_or_pos res.length with h0 | h0
    · exact absurd (List.length_eq_zero_iff.1 h0) hemp
    · exact h0⟩⟩
  have hX : ∀ a : Fin res.length, DR.mean (fun i : Fin ids.length => placed ids res[a].2.1 res[a].2.2 i) = 0 := by
    intro a
    obtain ⟨hsub, hl, hs⟩ := hmem a
    have hnd2 : res[a].2.2.Nodup := hsub.nodup hnd
    unfold DR.mean
    have e1 : ∑ i : Fin ids.length, placed ids res[a].2.1 res[a].2.2 i =
        ((ids.length : K) / (res[a].2.2.length : K)) * (ids.map fun u => column res[a].2.2 res[a].2.1 u).sum := by
      rw [← List.sum_map_mul_left, ← Fin.sum_univ_fun_getElem]
      exact Finset.sum_congr rfl fun i _ => placed_eq ids _ _ i
    have e2 : (ids.map fun u => column res[a].2.2 res[a].2.1 u).sum = res[a].2.1.sum := by
      have hfin : (ids.map fun u => column res[a].2.2 res[a].2.1 u).sum =
          ∑ u ∈ ids.toFinset, column res[a].2.2 res[a].2.1 u := (List.sum_toFinset _ hnd).symm
      have hfin2 : (res[a].2.2.map fun u => column res[a].2.2 res[a].2.1 u).sum =
          ∑ u ∈ res[a].2.2.toFinset, column res[a].2.2 res[a].2.1 u := (List.sum_toFinset _ hnd2).symm
      rw [hfin, ← Finset.sum_subset (s₁ := res[a].2.2.toFinset) (fun u hu => by
          rw [List.mem_toFinset] at hu ⊢; exact hsub.subset hu) (fun u _ hu => by
          rw [List.mem_toFinset] at hu; exact column_not_mem _ _ _ hu), ← hfin2]
      congr 1
      apply List.ext_getElem
      · rw [List.length_map, hl]
      · intro j h1 h2
        rw [List.getElem_map]
        unfold column
        have : res[a].2.2.idxOf? (res[a].2.2[j]'(by rw [← hl]; exact h2)) = some j := by
          rw [List.idxOf?, List.findIdx?_eq_some_iff_getElem]
          refine ⟨by rw [← hl]; exact h2, by simp, ?_⟩
          intro k hk
          simp only [beq_iff_eq, Bool.not_eq_true', beq_eq_false_iff_ne, ne_eq]
          intro he
          have := (hnd2.getElem_inj_iff).1 he
          omega
        rw [this]
        show (res[a].2.1[j]?).getD 0 = res[a].2.1[j]
        rw [List.getElem?_eq_getElem h2]
        rfl
    rw [e1, e2, hs, mul_zero, zero_div]
  have hcard : Fintype.card (Fin ids.length) = N := by rw [Fintype.card_fin, hlen]
  have key := C78_gmm_se_ratio (σ := Fin ids.length) (μ := Fin res.length) (by rw [hcard]; exact hN) (inv res.length)
    (fun a => res[a].1) (fun (i : Fin ids.length) (a : Fin res.length) => placed ids res[a].2.1 res[a].2.2 i) n hn
    hinv hX
  rw [hcard] at key
  show (gmm _ _ _ _).2.2 = _
  rw [key]
  congr 1
  unfold impliedVar
  congr 2
  rw [← Fin.sum_univ_fun_getElem]
  refine Finset.sum_congr rfl fun i _ => ?_
  have hu : ids[i] ∈ ids := List.getElem_mem _
  obtain ⟨j, hj1, hj2⟩ := column_finRange ids (fun i => ((n : K) / (ids.length : K)) *
    (gmm (inv res.length) (fun a : Fin res.length => res[a].1)
      (fun (i : Fin ids.length) (a : Fin res.length) => placed ids res[a].2.1 res[a].2.2 i) n).2.1 i) hu
  have hij : j = i := by
    apply Fin.ext
    exact (hnd.getElem_inj_iff).1 (by simpa using hj1)
  rw [hij] at hj2
  refine Eq.trans ?_ (congrArg (· ^ 2) hj2.symm)
  dsimp only
  have hc : (N : K) = (ids.length : K) := by rw [hlen]
  rw [hc]
  ring

/-- **C213 (standard error with several comparison cohorts).** If the covariance matrix is inverted exactly and the
influence values of every comparison average to zero, the squared standard error reported for the cell is `N²/((N-1) n)`
times the one implied by the cell's own influence values, where `N` is the number of rows of the cell and `n` the number
of rows of the data. -/
theorem C213_combined_se (inv : ∀ m, (Fin m → Fin m → K) → Fin m → Fin m → K) (est : EstimatorRC K) (g t : ℤ)
    (controls : List (Option ℤ)) (cell : List (Row K)) (n : ℕ) (hn : 0 < n) (hN : 2 ≤ cell.length)
    (hnd : (cell.map Row.id).Nodup)
    (hinv : let X := inMatrix (cell.map Row.id) (controls.filterMap fun c => singleRC est g t (comparison g c cell))
      IsInverse (inv _ (cov X)) (cov X))
    (hmean : ∀ c ∈ controls, ∀ x, singleRC est g t (comparison g c cell) = some x →
      x.2.1.length = x.2.2.length ∧ x.2.1.sum = 0)
    (out : K × (List ℕ × List K) × K) (h : multiControlsRC inv est g t controls cell n = some out) :
    out.2.2 = (((cell.map Row.id).map fun u => column out.2.1.1 out.2.1.2 u ^ 2).sum / (n : K)) / (n : K) *
      ((cell.length : K) ^ 2 / (((cell.length : K) - 1) * (n : K))) := by
  unfold multiControlsRC at h
  simp only at h
  split_ifs at h with hemp
  cases h
  refine combined_se_core inv (cell.map Row.id) _ n cell.length hn hN (List.length_map _) hnd hinv
    (fun h0 => hemp (by rw [h0]; rfl)) ?_
  intro a
  have : ∀ x ∈ controls.filterMap (fun c =>
      singleRC est g t (cell.filter fun r => decide (r.g = some g) || decide (r.g = c))),
      x.2.2.Sublist (cell.map Row.id) ∧ x.2.1.length = x.2.2.length ∧ x.2.1.sum = 0 := by
    intro x hx
    rw [List.mem_filterMap] at hx
    obtain ⟨c, hc, hx⟩ := hx
    refine ⟨?_, hmean c hc x hx⟩
    rw [singleRC_ids est g t _ _ hx]
    exact List.Sublist.map _ List.filter_sublist
  exact this _ (List.getElem_mem _)

/-- **C213 (violated).** So as soon as the data hold more than `N²/(N-1)` rows, the reported standard error of such a cell
is strictly smaller than the one implied by its influence values. -/
theorem C213_understated_violated (inv : ∀ m, (Fin m → Fin m → K) → Fin m → Fin m → K) (est : EstimatorRC K) (g t : ℤ)
    (controls : List (Option ℤ)) (cell : List (Row K)) (n : ℕ) (hN : 2 ≤ cell.length)
    (hnd : (cell.map Row.id).Nodup)
    (hinv : let X := inMatrix (cell.map Row.id) (controls.filterMap fun c => singleRC est g t (comparison g c cell))
      IsInverse (inv _ (cov X)) (cov X))
    (hmean : ∀ c ∈ controls, ∀ x, singleRC est g t (comparison g c cell) = some x →
      x.2.1.length = x.2.2.length ∧ x.2.1.sum = 0)
    (out : K × (List ℕ × List K) × K) (h : multiControlsRC inv est g t controls cell n = some out)
    (hbig : cell.length ^ 2 < (cell.length - 1) * n) (hpos : 0 < out.2.2) :
    out.2.2 < (((cell.map Row.id).map fun u => column out.2.1.1 out.2.1.2 u ^ 2).sum / (n : K)) / (n : K) := by
  have hn : 0 < n := by
    rcases Nat.eq_zero_or_pos n with rfl | h
    · simp at hbig
    · exact h
  have key := C213_combined_se inv est g t controls cell n hn hN hnd hinv hmean out h
  obtain ⟨V, hV⟩ : ∃ v, v = (((cell.map Row.id).map fun u => column out.2.1.1 out.2.1.2 u ^ 2).sum / (n : K)) / (n : K) :=
    ⟨_, rfl⟩
  rw [← hV] at key ⊢
  have hc : (2 : K) ≤ (cell.length : K) := by exact_mod_cast hN
  have hn' : (0 : K) < n := by exact_mod_cast hn
  have hb : (cell.length : K) ^ 2 < ((cell.length : K) - 1) * n := by
    have : ((cell.length ^ 2 : ℕ) : K) < (((cell.length - 1) * n : ℕ) : K) := by exact_mod_cast hbig
    rw [Nat.cast_mul, Nat.cast_sub (by omega)] at this
    simpa using this
  have hd : (0 : K) < ((cell.length : K) - 1) * n := mul_pos (by linarith) hn'
  have hratio : (cell.length : K) ^ 2 / (((cell.length : K) - 1) * n) < 1 := (div_lt_one hd).2 hb
  have hq : 0 < (cell.length : K) ^ 2 / (((cell.length : K) - 1) * n) := div_pos (by positivity) hd
  have hVpos : 0 < V := by
    rw [key] at hpos
    exact pos_of_mul_pos_left hpos hq.le
  rw [key]
  nlinarith

end Ordered

/-- Cell (3, 3) of cohorts 3 (treated), 4 (not yet treated) and never treated, periods 2 and 3. -/
def exCellRC : List (Row ℚ) := indexed
  [⟨0, 2, some 3, true, 1⟩, ⟨0, 3, some 3, true, 9⟩, ⟨0, 2, some 3, true, 3⟩, ⟨0, 3, some 3, true, 7⟩,
   ⟨0, 2, some 3, false, 1⟩, ⟨0, 3, some 3, false, 2⟩, ⟨0, 2, some 4, true, 1⟩, ⟨0, 3, some 4, true, 2⟩,
   ⟨0, 2, some 4, true, 5⟩, ⟨0, 3, some 4, false, 1⟩, ⟨0, 2, some 4, false, 5⟩,
   ⟨0, 2, some 0, true, 1⟩, ⟨0, 3, some 0, true, 2⟩, ⟨0, 3, some 0, true, 5⟩, ⟨0, 3, some 0, false, 2⟩, ⟨0, 2, some 0, false, 2⟩]

/-- Exact inverse of a 2 x 2 matrix, identity otherwise. -/
def exInv2 (m : ℕ) (C : Fin m → Fin m → ℚ) : Fin m → Fin m → ℚ :=
  if h : m = 2 then
    let i0 : Fin m := ⟨0, by omega⟩
    let i1 : Fin m := ⟨1, by omega⟩
    fun a b => (if a = b then (if a = i0 then C i1 i1 else C i0 i0) else - C a b) / (C i0 i0 * C i1 i1 - C i0 i1 * C i1 i0)
  else C

example : (exCellRC.map Row.id).Nodup ∧ 2 ≤ exCellRC.length ∧
    (∀ c ∈ [some 4, some 0], ∀ x ∈ (singleRC exEstRC 3 3 (comparison 3 c exCellRC)).toList,
      x.2.1.length = x.2.2.length ∧ x.2.1.sum = 0) ∧
    (let X := inMatrix (exCellRC.map Row.id) ([some 4, some 0].filterMap fun c =>
        singleRC exEstRC 3 3 (comparison 3 c exCellRC))
      ∀ a c, ∑ b, (exInv2 _ (cov X)) a b * cov X b c = if a = c then 1 else 0) ∧
    (multiControlsRC exInv2 exEstRC 3 3 [some 4, some 0] exCellRC 40).isSome = true ∧
    exCellRC.length ^ 2 < (exCellRC.length - 1) * 40 ∧
    (multiControlsRC exInv2 exEstRC 3 3 [some 4, some 0] exCellRC 40).all (fun o => decide (0 < o.2.2)) = true := by
  decide +kernel

/-! ## C214: the group-time estimators agree with the two-period ones -/

section TwoPeriod
open Entry (treatRC codeOf twoRCRows twoPanelRows)

/-- Spec: a two-period design: periods `t0`, `t1`, one cohort `g` first treated between them, never-treated units with one
code `c`, both present. -/
structure TwoPeriodDesign (data : List (Row K)) (t0 t1 g : ℤ) (c : Option ℤ) : Prop where
  times : tlistOf data = [t0, t1]
  order : t0 < t1
  after : t0 < g
  by_t1 : g ≤ t1
  positive : 0 < g
  never : c = none ∨ c = some 0
  codes : ∀ r ∈ data, r.g = some g ∨ r.g = c
  someControl : ∃ r ∈ data, r.g = c

lemma TwoPeriodDesign.ne {data : List (Row K)} {t0 t1 g : ℤ} {c : Option ℤ} (h : TwoPeriodDesign data t0 t1 g c) :
    c ≠ some g := by
  rcases h.never with rfl | rfl
  · simp
  · have := h.positive
    intro he
    have := Option.some.inj he
    omega

lemma TwoPeriodDesign.time_mem {data : List (Row K)} {t0 t1 g : ℤ} {c : Option ℤ} (h : TwoPeriodDesign data t0 t1 g c)
    (r : Row K) (hr : r ∈ data) : r.time = t0 ∨ r.time = t1 := by
  have : r.time ∈ tlistOf data := (mem_uniqueSorted _ _).2 (List.mem_map_of_mem hr)
  rw [h.times] at this
  simpa using this

lemma TwoPeriodDesign.lastPre {data : List (Row K)} {t0 t1 g : ℤ} {c : Option ℤ} (h : TwoPeriodDesign data t0 t1 g c) :
    lastPre (tlistOf data) g = some t0 := by
  have h1 := h.after
  have h2 := h.by_t1
  unfold Triple.lastPre
  rw [h.times]
  simp [List.filter_cons, h1, show ¬ t1 < g by omega]

lemma TwoPeriodDesign.pret {data : List (Row K)} {t0 t1 g : ℤ} {c : Option ℤ} (h : TwoPeriodDesign data t0 t1 g c)
    (universal : Bool) (i : ℕ) (hi : i < 2) : pretOf universal (tlistOf data) g t1 i = some t0 := by
  unfold pretOf basePeriod
  rw [h.lastPre]
  cases universal with
  | true => simp [h.by_t1]
  | false =>
    rw [h.times]
    rcases i with _ | _ | i
    · simp [h.by_t1]
    · simp [h.by_t1]
    · omega

lemma TwoPeriodDesign.cell {data : List (Row K)} {t0 t1 g : ℤ} {c : Option ℤ} (h : TwoPeriodDesign data t0 t1 g c)
    (notyet : Bool) : cellData notyet g t1 t0 data = data := by
  have key : ∀ r ∈ data, r ∈ cellData notyet g t1 t0 data := by
    intro r hr
    rw [C53_cell_rows]
    refine ⟨hr, ?_, (h.time_mem r hr).symm⟩
    unfold Usable
    rcases h.codes r hr with e | e
    · exact Or.inl e
    · rcases h.never with rfl | rfl
      · exact Or.inr (Or.inl e)
      · exact Or.inr (Or.inr (Or.inl e))
  unfold cellData at key ⊢
  rw [List.filter_eq_self]
  intro r hr
  exact (List.mem_filter.1 (key r hr)).2

lemma TwoPeriodDesign.controls {data : List (Row K)} {t0 t1 g : ℤ} {c : Option ℤ} (h : TwoPeriodDesign data t0 t1 g c) :
    availableControls g data = [c] := by
  have hall : ∀ x ∈ availableControls g data, x = c := by
    intro x hx
    have hne := availableControls_ne g data x hx
    unfold availableControls at hx
    rw [List.mem_dedup, List.mem_map] at hx
    obtain ⟨r, hr, rfl⟩ := hx
    exact (h.codes r (List.mem_of_mem_filter hr)).resolve_left hne
  have hnd : (availableControls g data).Nodup := List.nodup_dedup _
  have hc : c ∈ availableControls g data := by
    obtain ⟨r, hr, hrc⟩ := h.someControl
    unfold availableControls
    rw [List.mem_dedup, List.mem_map]
    exact ⟨r, List.mem_filter.2 ⟨hr, by rw [hrc]; simpa using h.ne⟩, hrc⟩
  cases hl : availableControls g data with
  | nil => rw [hl] at hc; simp at hc
  | cons a l =>
    rw [hl] at hall hnd
    have ha : a = c := hall a (by simp)
    cases l with
    | nil => rw [ha]
    | cons b l =>
      exfalso
      have hb : b = c := hall b (by simp)
      rw [ha, hb] at hnd
      simp at hnd

lemma TwoPeriodDesign.code {data : List (Row K)} {t0 t1 g : ℤ} {c : Option ℤ} (h : TwoPeriodDesign data t0 t1 g c)
    (r : Row K) (hr : r ∈ data) : subgroupOf g r = codeOf (treatRC r.g) r.elig := by
  unfold subgroupOf codeOf treatRC
  have hp := h.positive
  rcases h.codes r hr with e | e
  · rw [e, if_pos rfl]
    simp [show g ≠ 0 by omega]
  · rw [if_neg (by rw [e]; exact h.ne), e]
    rcases h.never with rfl | rfl <;> simp

/-- **C214 (repeated cross-sections).** On a two-period design the group-time estimator hands to `ddd_rc` the very rows, post
indicators and subgroups of the two-period route, whatever base period and comparison group are chosen, and reports its
estimate for the cell (g, t1); a cell without eligible treated rows is skipped. -/
theorem C214_rc_agrees (inv : ∀ m, (Fin m → Fin m → K) → Fin m → Fin m → K) (est : EstimatorRC K)
    (universal notyet : Bool) (data : List (Row K)) (t0 t1 g : ℤ) (c : Option ℤ) (h : TwoPeriodDesign data t0 t1 g c)
    (i : ℕ) (hi : i < 2) :
    ∃ rows, twoRCRows data = some rows ∧
      (processCellRC inv est universal notyet data g t1 i).map CellOut.att =
        if ∃ e ∈ rows, e.2.2 = 4 then (est rows).map Prod.fst else none := by
  have hrows : twoRCRows data = some (data.map fun r => (r, decide (r.time = t1), subgroupOf g r)) := by
    unfold twoRCRows
    rw [h.times]
    dsimp only
    congr 1
    refine List.map_congr_left fun r hr => ?_
    rw [h.code r hr]
  refine ⟨_, hrows, ?_⟩
  unfold processCellRC
  rw [h.pret universal i hi]
  dsimp only
  rw [if_neg (by have := h.order; simp; intro _; omega), h.cell notyet, h.controls]
  dsimp only
  rw [Option.map_map]
  unfold singleRC
  by_cases h4 : data.any (fun r => decide (subgroupOf g r = 4)) = true
  · rw [if_neg (by simpa using h4), if_pos]
    · cases est (data.map fun r => (r, decide (r.time = t1), subgroupOf g r)) with
      | none => rfl
      | some x => rfl
    · rw [List.any_eq_true] at h4
      obtain ⟨r, hr, h4⟩ := h4
      exact ⟨_, List.mem_map_of_mem hr, by simpa using h4⟩
  · rw [if_pos h4, if_neg]
    · rfl
    · rintro ⟨e, he, h5⟩
      obtain ⟨r, hr, rfl⟩ := List.mem_map.1 he
      exact h4 (List.any_eq_true.2 ⟨r, hr, by simpa using h5⟩)

/-- Two periods 1 and 2, cohort 2 and never-treated rows coded 0. -/
lemma exTwo_design : TwoPeriodDesign Entry.exTwo 1 2 2 (some 0) := by
  refine ⟨by decide +kernel, by decide, by decide, by decide, by decide, Or.inr rfl, by decide +kernel, ?_⟩
  exact ⟨⟨3, 1, some 0, true, 1⟩, by simp [Entry.exTwo], rfl⟩

/-- **C214 (panel).** Likewise for panels: on a balanced two-period design that passes the two-period checks, the group-time
estimator hands to `ddd_panel` the very units, pairs of rows and subgroups of the two-period route and reports its estimate. -/
theorem C214_panel_agrees (inv : ∀ m, (Fin m → Fin m → K) → Fin m → Fin m → K) (est : Estimator K)
    (universal notyet : Bool) (data : List (Row K)) (t0 t1 g : ℤ) (h : TwoPeriodDesign data t0 t1 g (some 0))
    (hbal : ∀ r ∈ data, (data.filter fun s => decide (s.id = r.id)).length = 2)
    (rows : List (Row K × Row K × ℕ)) (hrows : twoPanelRows data = some rows) (i : ℕ) (hi : i < 2) :
    (processCell inv est universal notyet data g t1 i).map CellOut.att =
      if ∃ e ∈ rows, e.2.2 = 4 then (est rows).map Prod.fst else none := by
  have h2 : Entry.nUnique (data.map Row.time) = 2 := by
    have h1 := congrArg List.length h.times
    unfold tlistOf Agg.uniqueSorted at h1
    rw [List.length_insertionSort] at h1
    exact h1
  have hb : Entry.balancedRows data = data := by
    unfold Entry.balancedRows
    rw [List.filter_eq_self]
    intro r hr
    rw [hbal r hr, h2]; rfl
  have hr' : rows = (pairs t1 t0 data).map fun p => (p.1, p.2, subgroupOf g p.1) := by
    unfold twoPanelRows at hrows
    by_cases hv : (!Entry.twoPanelValid data) = true
    · rw [if_pos hv] at hrows; cases hrows
    · rw [if_neg hv, hb, h.times] at hrows
      dsimp only at hrows
      cases hrows
      refine List.map_congr_left fun p hp => ?_
      have hm := (pairs_fst_mem _ _ _ _ hp).1
      rw [h.code p.1 hm]
      have : decide (p.1.g ≠ some 0) = treatRC p.1.g := by
        unfold treatRC
        rcases h.codes p.1 hm with e | e <;> rw [e] <;> simp
      rw [this]
  unfold processCell
  rw [h.pret universal i hi]
  dsimp only
  rw [if_neg (by have := h.order; simp; intro _; omega), h.cell notyet, h.controls]
  dsimp only
  rw [Option.map_map]
  unfold singleDDD
  dsimp only
  by_cases h4 : (pairs t1 t0 data).any (fun p => decide (subgroupOf g p.1 = 4)) = true
  · have hne : ¬ (pairs t1 t0 data).isEmpty = true := by
      intro he
      rw [List.isEmpty_iff] at he
      rw [he] at h4
      simp at h4
    rw [if_neg hne, if_neg (by simpa using h4), if_pos, ← hr']
    · cases est rows with
      | none => rfl
      | some x => rfl
    · rw [List.any_eq_true] at h4
      obtain ⟨p, hp, h4⟩ := h4
      exact ⟨_, by rw [hr']; exact List.mem_map_of_mem hp, by simpa using h4⟩
  · rw [if_neg (c := ∃ e ∈ rows, e.2.2 = 4)]
    · by_cases he : (pairs t1 t0 data).isEmpty = true
      · rw [if_pos he]; rfl
      · rw [if_neg he, if_pos h4]; rfl
    · rintro ⟨e, he, h5⟩
      rw [hr'] at he
      obtain ⟨p, hp, rfl⟩ := List.mem_map.1 he
      exact h4 (List.any_eq_true.2 ⟨p, hp, by simpa using h5⟩)

example : (∀ r ∈ Entry.exTwo, (Entry.exTwo.filter fun s => decide (s.id = r.id)).length = 2) ∧
    (twoPanelRows Entry.exTwo).isSome = true ∧
    (processCell exInv exEst true false Entry.exTwo 2 2 1).map CellOut.att = some 7 ∧
    (processCellRC exInv exEstRC false true Entry.exTwo 2 2 0).map CellOut.att = some 7 := by
  decide +kernel

end TwoPeriod

end Verif.Triple
