import Verif.AttGt.Props
import Mathlib.Tactic.Linarith

/-!
# C24 and C71: influence-function bookkeeping and the cells that could not be estimated
-/

set_option linter.unusedSectionVars false

namespace Verif.AttGt

open Verif.Prep Verif.Panel

variable {K : Type*} [Field K]

/-! ## C24 -/

theorem scatter_length (c : K) : ∀ (idx : List (Option Bool)) (inf : List K), (scatter c idx inf).length = idx.length
  | [], _ => rfl
  | none :: l, inf => by simp [scatter, scatter_length c l inf]
  | some _ :: l, x :: inf => by simp [scatter, scatter_length c l inf]
  | some _ :: l, [] => by simp [scatter, scatter_length c l []]

theorem scatter_get (c : K) : ∀ (idx : List (Option Bool)) (inf : List K), inf.length = nValid idx →
    ∀ k (hk : k < idx.length), (scatter c idx inf)[k]? =
      match idx[k] with
      | none => some 0
      | some _ => inf[nValid (idx.take k)]?.map (c * ·)
  | [], _, _, k, hk => by simp at hk
  | none :: l, inf, h, 0, _ => by simp [scatter]
  | none :: l, inf, h, k + 1, hk => by
    have := scatter_get c l inf (by simpa [nValid] using h) k (by simpa using hk)
    simpa [scatter, nValid] using this
  | some b :: l, [], h, k, hk => by simp [nValid] at h
  | some b :: l, x :: inf, h, 0, hk => by simp [scatter, nValid]
  | some b :: l, x :: inf, h, k + 1, hk => by
    have := scatter_get c l inf (by simpa [nValid] using h) k (by simpa using hk)
    simpa [scatter, nValid] using this

theorem scatter_map_sum (c : K) (φ : K → K) (hφ : φ 0 = 0) : ∀ (idx : List (Option Bool)) (inf : List K),
    inf.length = nValid idx → ((scatter c idx inf).map φ).sum = (inf.map fun x => φ (c * x)).sum
  | [], inf, h => by
    have : inf = [] := by simpa [nValid] using h
    simp [scatter, this]
  | none :: l, inf, h => by
    have := scatter_map_sum c φ hφ l inf (by simpa [nValid] using h)
    simpa [scatter, hφ] using this
  | some b :: l, [], h => by simp [nValid] at h
  | some b :: l, x :: inf, h => by
    have := scatter_map_sum c φ hφ l inf (by simpa [nValid] using h)
    simp [scatter, this]

theorem list_sum_map_mul_left (c : K) (l : List K) : (l.map fun x => c * x).sum = c * l.sum := by
  induction l with
  | nil => simp
  | cons a l ih => simp [ih, mul_add]

/-- **C24.** The influence function of a cell has one entry per unit; it is zero for units outside the cell; for the
`j`-th unit of the cell it is `n / n_cell` times the estimator's `j`-th influence value. -/
theorem C24_influence_rescaled (idx : List (Option Bool)) (inf : List K) (h : inf.length = nValid idx) :
    (cellIF idx inf).length = idx.length ∧
    ∀ k (hk : k < idx.length),
      (idx[k] = none → (cellIF idx inf)[k]? = some 0) ∧
      (idx[k] ≠ none → ∃ v, inf[nValid (idx.take k)]? = some v ∧
        (cellIF idx inf)[k]? = some ((idx.length : K) / (nValid idx : K) * v)) := by
  refine ⟨scatter_length _ _ _, ?_⟩
  intro k hk
  have hg := scatter_get ((idx.length : K) / (nValid idx : K)) idx inf h k hk
  constructor
  · intro hn
    rw [cellIF, hg, hn]
  · intro hn
    obtain ⟨b, hb⟩ := Option.ne_none_iff_exists'.1 hn
    have hlt : nValid (idx.take k) < inf.length := by
      rw [h]
      unfold nValid
      conv_rhs => rw [← List.take_append_drop k idx, List.filter_append, List.length_append,
        List.drop_eq_getElem_cons hk, hb, List.filter_cons_of_pos (by simp)]
      simp
    refine ⟨inf[nValid (idx.take k)], by simp [hlt], ?_⟩
    rw [cellIF, hg, hb]
    simp [hlt]

/-- **C24, averages.** Averaging the rescaled influence function over all `n` units gives the average of the
estimator's influence values over the cell; the same for the standard error, `Σψ²/n²`. -/
theorem C24_average_preserved [CharZero K] (idx : List (Option Bool)) (inf : List K) (h : inf.length = nValid idx)
    (hv : 0 < nValid idx) :
    (cellIF idx inf).sum / (idx.length : K) = inf.sum / (nValid idx : K) ∧
    ((cellIF idx inf).map fun x => x * x).sum / ((idx.length : K) * idx.length) =
      (inf.map fun x => x * x).sum / ((nValid idx : K) * nValid idx) := by
  have hv' : (nValid idx : K) ≠ 0 := Nat.cast_ne_zero.2 (by omega)
  have hn : (idx.length : K) ≠ 0 := by
    refine Nat.cast_ne_zero.2 ?_
    have : nValid idx ≤ idx.length := List.length_filter_le _ _
    omega
  constructor
  · have := scatter_map_sum ((idx.length : K) / (nValid idx : K)) id rfl idx inf h
    simp only [List.map_id, id] at this
    rw [cellIF, this, list_sum_map_mul_left]
    field_simp
  · have := scatter_map_sum ((idx.length : K) / (nValid idx : K)) (fun x => x * x) (by simp) idx inf h
    rw [cellIF, this]
    have e : (inf.map fun x => (idx.length : K) / (nValid idx : K) * x * ((idx.length : K) / (nValid idx : K) * x)).sum =
        ((idx.length : K) / (nValid idx : K)) * ((idx.length : K) / (nValid idx : K)) * (inf.map fun x => x * x).sum := by
      induction inf with
      | nil => simp
      | cons a l ih =>
        clear ih h this
        induction a :: l with
        | nil => simp
        | cons b l ih => simp only [List.map_cons, List.sum_cons, ih]; ring
    rw [e]
    field_simp

theorem sum_partition {ι : Type*} [DecidableEq ι] : ∀ (ids : List ι) (l : List (ι × K)), ids.Nodup →
    (∀ p ∈ l, p.1 ∈ ids) →
    (ids.map fun u => ((l.filter fun p => p.1 = u).map Prod.snd).sum).sum = (l.map Prod.snd).sum
  | ids, [], _, _ => by
    induction ids with
    | nil => simp
    | cons a ids ih => simp
  | ids, p :: l, hn, hm => by
    have ih := sum_partition ids l hn fun q hq => hm q (by simp [hq])
    rw [List.map_cons, List.sum_cons, ← ih]
    have hp : p.1 ∈ ids := hm p (by simp)
    clear ih hm
    induction ids with
    | nil => simp at hp
    | cons a ids ih =>
      rw [List.nodup_cons] at hn
      by_cases hpa : p.1 = a
      · have hrest : (ids.map fun u => (((p :: l).filter fun p => p.1 = u).map Prod.snd).sum) =
            ids.map fun u => ((l.filter fun p => p.1 = u).map Prod.snd).sum := by
          apply List.map_congr_left
          intro u hu
          rw [List.filter_cons_of_neg]
          simp only [decide_eq_true_eq]
          rintro rfl
          exact hn.1 (hpa ▸ hu)
        rw [List.map_cons, List.sum_cons, hrest, List.filter_cons_of_pos (by simpa using hpa)]
        simp [add_assoc]
      · have hp' : p.1 ∈ ids := (List.mem_cons.1 hp).resolve_left hpa
        rw [List.map_cons, List.sum_cons, List.map_cons, List.sum_cons, ih hn.2 hp',
          List.filter_cons_of_neg (by simpa using hpa)]
        ring

/-- **C24, unbalanced panels.** After summing the row influences of each unit, the average over the units equals the
average of the estimator's influence values over the rows of the cell; a unit with no row in the cell gets zero. -/
theorem C24_unbalanced_average [CharZero K] {ι : Type*} [DecidableEq ι] (idCount : ℕ) (ids rowid : List ι)
    (idx : List (Option Bool)) (inf : List K) (h : inf.length = nValid idx) (hv : 0 < nValid idx)
    (hlen : rowid.length = idx.length) (hn : ids.Nodup) (hcov : ∀ u ∈ rowid, u ∈ ids) (hid : idCount ≠ 0) :
    (cellIFUnbalanced idCount ids rowid idx inf).sum / (idCount : K) = inf.sum / (nValid idx : K) := by
  have hv' : (nValid idx : K) ≠ 0 := Nat.cast_ne_zero.2 (by omega)
  have hi' : (idCount : K) ≠ 0 := Nat.cast_ne_zero.2 hid
  unfold cellIFUnbalanced
  rw [sum_partition ids _ hn (by
    rintro ⟨u, x⟩ hp
    exact hcov u (List.of_mem_zip hp).1)]
  rw [List.map_snd_zip (by rw [scatter_length, hlen])]
  have := scatter_map_sum ((idCount : K) / (nValid idx : K)) id rfl idx inf h
  simp only [List.map_id, id] at this
  rw [this, list_sum_map_mul_left]
  field_simp

/-- **C24, unbalanced panels, zero outside the cell.** -/
theorem C24_unbalanced_zero {ι : Type*} [DecidableEq ι] (idCount : ℕ) (ids rowid : List ι)
    (idx : List (Option Bool)) (inf : List K) (h : inf.length = nValid idx) (hlen : rowid.length = idx.length)
    (j : ℕ) (hj : j < ids.length)
    (hout : ∀ k (hk : k < idx.length), rowid[k]? = some ids[j] → idx[k] = none) :
    (cellIFUnbalanced idCount ids rowid idx inf)[j]? = some 0 := by
  unfold cellIFUnbalanced
  rw [List.getElem?_map, List.getElem?_eq_getElem hj]
  simp only [Option.map_some, Option.some.injEq]
  apply List.sum_eq_zero
  intro x hx
  obtain ⟨⟨u, x'⟩, hm, rfl⟩ := List.mem_map.1 hx
  rw [List.mem_filter] at hm
  obtain ⟨hm1, hm2⟩ := hm
  simp only [decide_eq_true_eq] at hm2
  obtain ⟨k, hk, hkp⟩ := List.getElem_of_mem hm1
  rw [List.length_zip, scatter_length, hlen, min_self] at hk
  rw [List.getElem_zip] at hkp
  have h1 : rowid[k]? = some ids[j] := by
    have := congrArg Prod.fst hkp
    simp only at this
    simp [hlen, hk, this, hm2]
  have hnone := hout k hk h1
  have hg := scatter_get ((idCount : K) / (nValid idx : K)) idx inf h k hk
  rw [hnone] at hg
  have h2 := congrArg Prod.snd hkp
  simp only at h2
  rw [List.getElem?_eq_getElem (by rw [scatter_length]; exact hk)] at hg
  have := Option.some.inj hg
  rw [← h2]; exact this

example : cellIF [some true, none, some false, none] ([2, -2] : List ℚ) = [4, 0, -4, 0] ∧
    ([2, -2] : List ℚ).length = nValid [some true, none, some false, none] ∧
    cellIFUnbalanced 2 [7, 8] [7, 8, 7, 8] [some true, none, some false, none] ([2, -1] : List ℚ) = [1, 0] := by
  decide +kernel

/-! ## C71 -/

/-- **C71, what holds.** With a varying base a cell that could not be estimated (no usable base period, no treated or no
comparison unit, or a failed estimator) is not reported at all. -/
theorem C71_varying_unestimated_not_reported (est : Estimator K) (D : Data K) (c : ℕ × ℕ)
    (hf : ∃ g t, D.groups[c.1]? = some g ∧ D.periods[c.2 + 1]? = some t)
    (h : runCell .varying est D c.1 c.2 = .none_) : processCell .varying est D c = some none := by
  obtain ⟨g, t, hg, ht⟩ := hf
  unfold processCell
  simp only [timeFactor, hg, ht, h]

/-- A cohort-4-only comparison problem: cohorts 3 and 4, no never-treated units, not-yet-treated comparison. After
preprocessing, periods 1, 2, 3 remain. -/
def exNoControl : Data ℚ where
  cg := .notYetTreated
  anticip := 0
  periods := [1, 2, 3]
  groups := [3, 4]
  counts := [(3, 1), (4, 1)]
  nUnits := 2
  outcomes := [[1, 5], [2, 7], [10, 11]]
  weights := [1, 1]

/-- **C71, violated.** With a universal base, a cell without any comparison unit, whose period is not the base period,
is reported as an estimate of exactly zero with an all-zero influence function (hence standard error zero), whatever
the estimator and the outcomes are: the report is indistinguishable from the normalised base period. -/
theorem C71_unestimated_not_reported_violated :
    ∃ (D : Data ℚ) (c : ℕ × ℕ), c ∈ cells .universal D.groups.length D.periods.length ∧
      (∃ p, planCell .universal D.periods D.anticip 4 c.2 = some (.run p)) ∧ D.groups[c.1]? = some 4 ∧
      ∀ est, runCell .universal est D c.1 c.2 = .none_ ∧
        processCell .universal est D c = some (some (⟨0, 4, 1, false⟩, [0, 0])) := by
  refine ⟨exNoControl, (1, 0), by decide, ⟨2, by decide⟩, by decide, ?_⟩
  intro est
  have h : runCell .universal est exNoControl 1 0 = .none_ := rfl
  exact ⟨h, rfl⟩

/-- Raw data from which the preprocessing pipeline produces `exNoControl`. -/
def exNoControlRaw : List (Obs ℕ ℕ) :=
  [⟨1, 1, (3, 1)⟩, ⟨1, 2, (3, 2)⟩, ⟨1, 3, (3, 10)⟩, ⟨1, 4, (3, 20)⟩,
   ⟨2, 1, (4, 5)⟩, ⟨2, 2, (4, 7)⟩, ⟨2, 3, (4, 11)⟩, ⟨2, 4, (4, 12)⟩]

example : (pipeline .notYetTreated 0 exNoControlRaw).map (fun out => (periodsOf out, groupsOf out)) =
      some (exNoControl.periods, exNoControl.groups) ∧
    (pipeline .notYetTreated 0 exNoControlRaw).map (fun out => cohortCounts (timeInvariant out)) =
      some exNoControl.counts ∧
    (pipeline .notYetTreated 0 exNoControlRaw).map (fun out => (idCount out, outcomesTensor id out)) =
      some (2, [[1, 5], [2, 7], [10, 11]]) := by
  decide

/-- A panel with a never-treated unit on which every cell is estimated (here with a plain difference of changes). -/
def exData : Data ℚ :=
  { exNoControl with cg := .neverTreated, groups := [3], counts := [(3, 1), (⊤, 1)] }

/-- A toy estimator for one treated and one comparison unit. -/
def exEst : Estimator ℚ := fun y1 y0 _ _ =>
  match y1, y0 with
  | [a, b], [c, d] => .val ((a - c) - (b - d)) [1, -1]
  | _, _ => .failed

example : computeAttGt .varying exEst exData =
    some ([⟨-1, 3, 2, false⟩, ⟨4, 3, 3, true⟩], [[1, -1], [1, -1]]) := by decide +kernel

/-- **C22, post indicator.** Every reported estimate is flagged as post-treatment iff its period is not before its cohort's
first treated period. -/
theorem C22_post_flag (bp : BasePeriod) (est : Estimator K) (D : Data K) (atts : List (ATTgt K)) (ifs : List (List K))
    (h : computeAttGt bp est D = some (atts, ifs)) (e : ATTgt K) (he : e ∈ atts) : e.post = true ↔ e.group ≤ e.year := by
  obtain ⟨sub, _, _, hl, _, hk, _⟩ := C22_results_aligned bp est D atts ifs h
  obtain ⟨k, hlt, rfl⟩ := List.getElem_of_mem he
  obtain ⟨a, f, hp, ha, _⟩ := hk k (by omega)
  rw [List.getElem?_eq_getElem hlt] at ha
  rw [Option.some.inj ha]
  unfold processCell at hp
  split at hp
  · next g t hg ht =>
    simp only at hp
    split at hp
    · cases hp
    · split at hp <;> simp at hp
      rw [← hp.1]; simp
    · simp at hp; rw [← hp.1]; simp
    · simp at hp; rw [← hp.1]; simp
  · cases hp

/-- **C22, labels.** The cohorts and periods of the table are listed in increasing order without repetition; the periods are those
of the panel, the cohorts the finite ones. -/
theorem C22_labels {ι β : Type*} (df : List (Obs ι β)) :
    (groupsOf df).Pairwise (· < ·) ∧ (periodsOf df).Pairwise (· < ·) ∧
    (∀ g : ℤ, g ∈ groupsOf df ↔ ∃ r ∈ df, r.val.1 = (g : WithTop ℤ)) ∧ ∀ t, t ∈ periodsOf df ↔ ∃ r ∈ df, r.t = t := by
  have srt : ∀ l : List ℤ, (l.dedup.insertionSort (· ≤ ·)).Pairwise (· < ·) := by
    intro l
    have h1 : (l.dedup.insertionSort (· ≤ ·)).Pairwise (· ≤ ·) := List.pairwise_insertionSort _ _
    have h2 : (l.dedup.insertionSort (· ≤ ·)).Nodup := (List.perm_insertionSort _ _).nodup_iff.2 (List.nodup_dedup l)
    exact (h1.and h2).imp fun h => lt_of_le_of_ne h.1 h.2
  refine ⟨srt _, srt _, ?_, ?_⟩
  · intro g
    unfold groupsOf
    rw [(List.perm_insertionSort _ _).mem_iff, List.mem_dedup, List.mem_filterMap]
    constructor
    · rintro ⟨c, hc, e⟩
      obtain ⟨r, hr, rfl⟩ := List.mem_map.1 hc
      refine ⟨r, hr, ?_⟩
      show cohort r = _
      revert e
      cases hcr : cohort r using WithTop.recTopCoe with
      | top => intro e; simp [finitePart] at e
      | coe x => intro e; simp [finitePart] at e; rw [e]
    · rintro ⟨r, hr, e⟩
      exact ⟨cohort r, List.mem_map.2 ⟨r, hr, rfl⟩, by unfold cohort; rw [e]; rfl⟩
  · intro t
    unfold periodsOf
    rw [(List.perm_insertionSort _ _).mem_iff, List.mem_dedup, List.mem_map]

end Verif.AttGt
