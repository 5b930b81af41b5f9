import Verif.AttGt.Bookkeeping
import Mathlib.Tactic.IntervalCases

/-!
# C270, C271, C272: theorems
-/

set_option linter.unusedSectionVars false
set_option linter.unusedSimpArgs false

namespace Verif.AttGt

open Verif.Prep Verif.Panel

variable {ι β K : Type*} [Field K] [LinearOrder ι]

theorem sort_ids_perm (df : List (Obs ι β)) : ((sortTGI df).map Row.id).Perm (df.map Row.id) :=
  (List.perm_insertionSort _ _).map _

/-- **C270, cross-sections.** With `panel=False` and distinct ids, the table of units whose cohorts (`G`) and clusters
are handed on lists exactly the observations of the estimation data in the same order, and entry `k` of the influence
function of any cell is the rescaled influence value of the observation in row `k` of that table, and zero when that
observation is not part of the cell. -/
theorem C270_cross_section_aligned (df : List (Obs ι β)) (hd : (df.map Row.id).Nodup) (cg : ControlGroup)
    (relevant g t b : ℤ) (ψ : Obs ι β → K) :
    timeInvariant (sortTGI df) = sortTGI df ∧
    rcColumn false (sortTGI df) (rcCohortIndex cg relevant g t b (sortTGI df))
        (((sortTGI df).filter (inCell cg relevant g t b)).map ψ) =
      (timeInvariant (sortTGI df)).map fun r => if inCell cg relevant g t b r then
        ((df.length : K) / (((sortTGI df).filter (inCell cg relevant g t b)).length : K)) * ψ r else 0 := by
  have h1 : timeInvariant (sortTGI df) = sortTGI df := filterMap_find ((sort_ids_perm df).nodup_iff.2 hd)
  refine ⟨h1, ?_⟩
  rw [h1]
  obtain ⟨f, hf, hin⟩ := inCell_iff cg relevant g t b (sortTGI df)
  have e : (fun r => (f r).isSome) = inCell cg relevant g t b := funext hin
  have hlen : (sortTGI df).length = df.length := (List.perm_insertionSort _ _).length_eq
  rw [hf, rcColumn, if_neg (by simp), cellIF, nValid_map, List.length_map, ← e, scatter_map, hlen]

example : ∃ df : List (Obs ℕ ℚ), (df.map Row.id).Nodup ∧ df ≠ sortTGI df ∧
    rcColumn false (sortTGI df) (rcCohortIndex .neverTreated 2 2 2 1 (sortTGI df)) [10, 20, 30, 40] =
      [(10 : ℚ), 20, 30, 40] ∧ (timeInvariant (sortTGI df)).map cohort = [2, ⊤, 2, ⊤] :=
  ⟨[⟨0, 1, (⊤, 0)⟩, ⟨1, 1, (2, 0)⟩, ⟨2, 2, (⊤, 0)⟩, ⟨3, 2, (2, 0)⟩], by decide +kernel, by decide +kernel,
    by decide +kernel, by decide +kernel⟩

theorem sum_unit (c : K) (f : Obs ι β → Option Bool) (ψ : Obs ι β → K) (u : ι) : ∀ s : List (Obs ι β),
    (((s.map fun r => (r.id, if (f r).isSome then c * ψ r else 0)).filter fun p => p.1 = u).map Prod.snd).sum =
      c * ((s.filter fun r => decide (r.id = u) && (f r).isSome).map ψ).sum
  | [] => by simp
  | r :: s => by
    have ih := sum_unit c f ψ u s
    by_cases h1 : r.id = u <;> cases h2 : f r <;> simp [h1, h2, List.filter_cons, ih, mul_add]

/-- **C270, summed by id.** With `allow_unbalanced_panel=True`, the influence function has one entry per distinct id,
in increasing order of the id: the rescaled total of the unit's influence values over its observations in the cell. -/
theorem C270_unbalanced_units (s : List (Obs ι β)) (cg : ControlGroup) (relevant g t b : ℤ) (ψ : Obs ι β → K) :
    rcColumn true s (rcCohortIndex cg relevant g t b s) ((s.filter (inCell cg relevant g t b)).map ψ) =
      (sortedIds s).map fun u => (idCount s : K) / ((s.filter (inCell cg relevant g t b)).length : K) *
        unitTotal (inCell cg relevant g t b) ψ s u := by
  obtain ⟨f, hf, hin⟩ := inCell_iff cg relevant g t b s
  have e : (fun r => (f r).isSome) = inCell cg relevant g t b := funext hin
  rw [hf, rcColumn, if_pos rfl, cellIFUnbalanced, nValid_map, ← e]
  simp only [scatter_map]
  apply List.map_congr_left
  intro u _
  generalize (idCount s : K) / ((s.filter fun r => (f r).isSome).length : K) = c
  rw [zip_map_self, sum_unit]
  rfl

/-- **C270, when the two orders agree.** With `allow_unbalanced_panel=True` the table of units is in the order of the
influence function exactly when it happens to be sorted by id. -/
theorem C270_unbalanced_aligned_iff (s : List (Obs ι β)) :
    (timeInvariant s).map Row.id = sortedIds s ↔ ((timeInvariant s).map Row.id).Pairwise (· ≤ ·) := by
  constructor
  · intro h
    rw [h]
    exact List.pairwise_insertionSort _ _
  · intro h
    have hp : ((timeInvariant s).map Row.id).Perm (sortedIds s) := by
      rw [timeInvariant_ids]
      unfold uniqStable sortedIds
      refine (List.reverse_perm _).trans (((List.reverse_perm _).dedup).trans ?_)
      exact (List.perm_insertionSort _ _).symm
    exact hp.eq_of_pairwise' h (List.pairwise_insertionSort _ _)

/-- **C270, row numbers as ids.** Without an id column the two orders agree exactly when the rows of the data were
already in order of period and cohort. -/
theorem C270_row_numbers_aligned_iff (rows : List (ℤ × (WithTop ℤ × β))) :
    (timeInvariant (sortTGI (numberRows rows))).map Row.id = sortedIds (sortTGI (numberRows rows)) ↔
      rows.Pairwise fun p q => p.1 < q.1 ∨ (p.1 = q.1 ∧ p.2.1 ≤ q.2.1) := by
  have hids : (numberRows rows).map Row.id = List.range rows.length := by
    unfold numberRows
    rw [List.map_map]
    have : (Row.id ∘ fun p : (ℤ × (WithTop ℤ × β)) × ℕ => (⟨p.2, p.1.1, p.1.2⟩ : Obs ℕ β)) = Prod.snd := rfl
    rw [this, List.zipIdx_map_snd, List.range_eq_range']
  have hnd : ((numberRows rows).map Row.id).Nodup := by rw [hids]; exact List.nodup_range
  have hti : timeInvariant (sortTGI (numberRows rows)) = sortTGI (numberRows rows) :=
    filterMap_find ((sort_ids_perm _).nodup_iff.2 hnd)
  have hlt : ((numberRows rows).map Row.id).Pairwise (· < ·) := by
    rw [hids]; exact List.pairwise_lt_range
  have hequiv : (numberRows rows).Pairwise leTGI ↔
      rows.Pairwise fun p q => p.1 < q.1 ∨ (p.1 = q.1 ∧ p.2.1 ≤ q.2.1) := by
    have h0 : (rows.Pairwise fun p q => p.1 < q.1 ∨ (p.1 = q.1 ∧ p.2.1 ≤ q.2.1)) ↔
        (numberRows rows).Pairwise fun p q => p.t < q.t ∨ (p.t = q.t ∧ cohort p ≤ cohort q) := by
      have : rows = (numberRows rows).map fun r => (r.t, r.val) := by
        unfold numberRows
        rw [List.map_map]
        have : ((fun r : Obs ℕ β => (r.t, r.val)) ∘ fun p : (ℤ × (WithTop ℤ × β)) × ℕ => (⟨p.2, p.1.1, p.1.2⟩ : Obs ℕ β)) =
          Prod.fst := rfl
        rw [this, List.zipIdx_map_fst]
      conv_lhs => rw [this]
      rw [List.pairwise_map]
      rfl
    rw [h0]
    rw [List.pairwise_map] at hlt
    constructor
    · intro h
      refine h.imp fun {p q} hpq => ?_
      rcases hpq with h | ⟨h, h' | h'⟩
      · exact Or.inl h
      · exact Or.inr ⟨h, h'.le⟩
      · exact Or.inr ⟨h, h'.1.le⟩
    · intro h
      refine (h.and hlt).imp fun {p q} hpq => ?_
      rcases hpq with ⟨h | ⟨h, h'⟩, h2⟩
      · exact Or.inl h
      · refine Or.inr ⟨h, ?_⟩
        rcases h'.lt_or_eq with h3 | h3
        · exact Or.inl h3
        · exact Or.inr ⟨h3, h2.le⟩
  rw [← hequiv, C270_unbalanced_aligned_iff, hti]
  constructor
  · intro h
    have hp : (sortTGI (numberRows rows)).Perm (numberRows rows) := List.perm_insertionSort _ _
    have hids' : (sortTGI (numberRows rows)).map Row.id = (numberRows rows).map Row.id :=
      (hp.map Row.id).eq_of_pairwise' h (hlt.imp fun h => le_of_lt h)
    have hsame : sortTGI (numberRows rows) = numberRows rows := by
      apply List.ext_getElem hp.length_eq
      intro k h1 h2
      have e := congrArg (fun l => l[k]?) hids'
      simp only [List.getElem?_map, List.getElem?_eq_getElem h1, List.getElem?_eq_getElem h2, Option.map_some,
        Option.some.injEq] at e
      exact List.inj_on_of_nodup_map hnd (hp.mem_iff.1 (List.getElem_mem h1)) (List.getElem_mem h2) e
    rw [← hsame]
    exact sortTGI_pairwise _
  · intro h
    have : sortTGI (numberRows rows) = numberRows rows := List.Pairwise.insertionSort_eq h
    rw [this]
    exact hlt.imp fun h => le_of_lt h

example : (timeInvariant (sortTGI (numberRows
    [((1 : ℤ), ((2 : WithTop ℤ), (0 : ℚ))), (1, (⊤, 0)), (2, (2, 0)), (2, (⊤, 0))]))).map cohort = [2, ⊤, 2, ⊤] := by
  decide +kernel

/-- **C270 (Violated).** Four observations in two periods, the never-treated one of each period first: every entry of
the influence function belongs to an observation of the other cohort than the one `G` gives for that entry, so that
`aggte` and the clustered bootstrap pair every influence value with the wrong cohort or cluster. -/
theorem C270_unbalanced_alignment_violated : ∃ rows : List (ℤ × (WithTop ℤ × ℚ)),
    let s := sortTGI (numberRows rows)
    (timeInvariant s).length = (sortedIds s).length ∧
    ∀ k : ℕ, k < rows.length → ∃ u r q, (sortedIds s)[k]? = some u ∧ r ∈ s ∧ r.id = u ∧
      (timeInvariant s)[k]? = some q ∧ cohort q ≠ cohort r := by
  refine ⟨[(1, (⊤, 0)), (1, (2, 0)), (2, (⊤, 0)), (2, (2, 0))], ?_, ?_⟩
  · decide +kernel
  · intro k hk
    have h4 : k < 4 := hk
    interval_cases k
    · exact ⟨0, ⟨0, 1, (⊤, 0)⟩, ⟨1, 1, (2, 0)⟩, by decide +kernel, by decide +kernel, rfl, by decide +kernel, by decide +kernel⟩
    · exact ⟨1, ⟨1, 1, (2, 0)⟩, ⟨0, 1, (⊤, 0)⟩, by decide +kernel, by decide +kernel, rfl, by decide +kernel, by decide +kernel⟩
    · exact ⟨2, ⟨2, 2, (⊤, 0)⟩, ⟨3, 2, (2, 0)⟩, by decide +kernel, by decide +kernel, rfl, by decide +kernel, by decide +kernel⟩
    · exact ⟨3, ⟨3, 2, (2, 0)⟩, ⟨2, 2, (⊤, 0)⟩, by decide +kernel, by decide +kernel, rfl, by decide +kernel, by decide +kernel⟩

/-- **C270 (Violated), consequence for aggregates.** The variance `Σψ²/n²` of an aggregate changes when the same
influence columns are paired with the cohorts in the order of the table instead of the order of the column. -/
theorem C270_aggregate_variance_violated : ∃ (cs : List (Agg.Cell (Fin 4) ℚ)) (G G' : Fin 4 → WithTop ℤ),
    (∃ σ : Equiv.Perm (Fin 4), G' = G ∘ σ) ∧
    (Agg.simpleAgg G (fun _ => 1) none cs).1 = (Agg.simpleAgg G' (fun _ => 1) none cs).1 ∧
    (∑ i, (Agg.simpleAgg G (fun _ => 1) none cs).2 i ^ 2) ≠ ∑ i, (Agg.simpleAgg G' (fun _ => 1) none cs).2 i ^ 2 := by
  refine ⟨[⟨2, 2, 1, ![0, 1, 0, -1]⟩, ⟨3, 3, 3, ![0, 0, 1, -1]⟩], ![⊤, 2, 3, ⊤], ![2, 3, ⊤, ⊤],
    ⟨⟨![1, 2, 0, 3], ![2, 0, 1, 3], by decide, by decide⟩, by decide⟩, by decide +kernel, by decide +kernel⟩

/-! ## C271 -/

theorem sum_sq_scale (c : K) (l : List K) : ((l.map fun x => c * x).map fun x => x * x).sum =
    c * c * (l.map fun x => x * x).sum := by
  induction l with
  | nil => simp
  | cons a l ih => simp only [List.map_cons, List.sum_cons, ih]; ring

/-- **C271, one row per observation.** With `panel=False` and `allow_unbalanced_panel=False` the reported variance is
`(n / id_count)²` times the variance of the estimator over its observations. -/
theorem C271_reported_variance [CharZero K] (s : List (Obs ι β)) (idx : List (Option Bool)) (hi : idx.length = s.length)
    (inf : List K) (h : inf.length = nValid idx) (hv : 0 < nValid idx) :
    reportedVar s (rcColumn false s idx inf) =
      ((s.length : K) / (idCount s : K)) ^ 2 * ((inf.map fun x => x * x).sum / (nValid idx : K) ^ 2) := by
  have hv' : (nValid idx : K) ≠ 0 := Nat.cast_ne_zero.2 (by omega)
  have e := (C24_average_preserved idx inf h hv).2
  have hn : (idx.length : K) ≠ 0 := by
    refine Nat.cast_ne_zero.2 ?_
    have : nValid idx ≤ idx.length := List.length_filter_le _ _
    omega
  have e2 : ((cellIF idx inf).map fun x => x * x).sum =
      (idx.length : K) * idx.length * ((inf.map fun x => x * x).sum / ((nValid idx : K) * nValid idx)) := by
    rw [← e, mul_div_cancel₀ _ (mul_ne_zero hn hn)]
  rw [reportedVar, rcColumn, if_neg (by simp), e2, hi]
  rw [div_pow, pow_two, pow_two, pow_two, div_div]
  ring

/-- **C271, when it is right.** Hence it is the estimator's variance exactly when no id occurs twice. -/
theorem C271_right_iff [LinearOrder K] [IsStrictOrderedRing K] (s : List (Obs ι β)) (idx : List (Option Bool))
    (hi : idx.length = s.length) (inf : List K) (h : inf.length = nValid idx) (hv : 0 < nValid idx)
    (h0 : (inf.map fun x => x * x).sum ≠ 0) :
    reportedVar s (rcColumn false s idx inf) = (inf.map fun x => x * x).sum / (nValid idx : K) ^ 2 ↔
      (s.map Row.id).Nodup := by
  have hv' : (nValid idx : K) ≠ 0 := Nat.cast_ne_zero.2 (by omega)
  have hle : nValid idx ≤ idx.length := List.length_filter_le _ _
  have hs : s ≠ [] := by
    rintro rfl
    have : idx.length = 0 := hi
    omega
  have hid : 0 < idCount s := by
    obtain ⟨r, l, rfl⟩ := List.exists_cons_of_ne_nil hs
    unfold idCount nUnique
    exact List.length_pos_of_mem (List.mem_dedup.2 (by simp : r.id ∈ ((r :: l).map Row.id)))
  have hid' : (idCount s : K) ≠ 0 := Nat.cast_ne_zero.2 (by omega)
  rw [C271_reported_variance s idx hi inf h hv]
  have hnz : (inf.map fun x => x * x).sum / (nValid idx : K) ^ 2 ≠ 0 := div_ne_zero h0 (pow_ne_zero _ hv')
  rw [mul_eq_right₀ hnz, pow_eq_one_iff_of_nonneg (div_nonneg (Nat.cast_nonneg _) (Nat.cast_nonneg _)) (by decide),
    div_eq_one_iff_eq hid', Nat.cast_inj]
  unfold idCount nUnique
  constructor
  · intro e
    have : (s.map Row.id).dedup = s.map Row.id :=
      (List.dedup_sublist _).eq_of_length (by rw [← e, List.length_map])
    exact List.dedup_eq_self.1 this
  · intro hn
    rw [List.dedup_eq_self.2 hn, List.length_map]

/-- **C271, summed by id.** With `allow_unbalanced_panel=True` the reported variance is the variance clustered by id:
the sum over units of the squared total of the unit's influence values, over the squared number of observations in the
cell, whatever the number of ids. -/
theorem C271_clustered_by_id [CharZero K] (s : List (Obs ι β)) (cg : ControlGroup) (relevant g t b : ℤ)
    (ψ : Obs ι β → K) (hs : s ≠ []) :
    reportedVar s (rcColumn true s (rcCohortIndex cg relevant g t b s) ((s.filter (inCell cg relevant g t b)).map ψ)) =
      ((sortedIds s).map fun u => unitTotal (inCell cg relevant g t b) ψ s u ^ 2).sum /
        ((s.filter (inCell cg relevant g t b)).length : K) ^ 2 := by
  have hid : 0 < idCount s := by
    obtain ⟨r, l, rfl⟩ := List.exists_cons_of_ne_nil hs
    unfold idCount nUnique
    exact List.length_pos_of_mem (List.mem_dedup.2 (by simp : r.id ∈ ((r :: l).map Row.id)))
  have hid' : (idCount s : K) ≠ 0 := Nat.cast_ne_zero.2 (by omega)
  rw [C270_unbalanced_units, reportedVar]
  generalize ((s.filter (inCell cg relevant g t b)).length : K) = m
  have e : ((sortedIds s).map fun u => (idCount s : K) / m * unitTotal (inCell cg relevant g t b) ψ s u) =
      ((sortedIds s).map fun u => unitTotal (inCell cg relevant g t b) ψ s u).map fun x => (idCount s : K) / m * x := by
    rw [List.map_map]; rfl
  rw [e, sum_sq_scale, List.map_map]
  have e2 : ((fun x : K => x * x) ∘ fun u => unitTotal (inCell cg relevant g t b) ψ s u) =
      fun u => unitTotal (inCell cg relevant g t b) ψ s u ^ 2 := by
    funext u; simp [sq]
  rw [e2]
  generalize ((sortedIds s).map fun u => unitTotal (inCell cg relevant g t b) ψ s u ^ 2).sum = S
  by_cases hm : m = 0
  · simp [hm]
  · field_simp

/-- A two-period panel of two units, observed in both periods. -/
def exTwice : List (Obs ℕ ℚ) := [⟨1, 1, (2, 0)⟩, ⟨2, 1, (⊤, 0)⟩, ⟨1, 2, (2, 0)⟩, ⟨2, 2, (⊤, 0)⟩]

/-- **C271 (Violated).** Units observed in two periods and declared as repeated cross-sections: the reported standard
error is twice the estimator's. -/
theorem C271_recurring_ids_violated : ∃ (s : List (Obs ℕ ℚ)) (inf : List ℚ),
    inf.length = nValid (rcCohortIndex .neverTreated 2 2 2 1 s) ∧ (inf.map fun x => x * x).sum ≠ 0 ∧
    reportedVar s (rcColumn false s (rcCohortIndex .neverTreated 2 2 2 1 s) inf) =
      2 ^ 2 * ((inf.map fun x => x * x).sum / (nValid (rcCohortIndex .neverTreated 2 2 2 1 s) : ℚ) ^ 2) :=
  ⟨exTwice, [1, -1, 2, 1], by decide +kernel, by decide +kernel, by decide +kernel⟩

example : (rcCohortIndex .neverTreated 2 2 2 1 exTwice).length = exTwice.length ∧
    reportedVar exTwice (rcColumn true exTwice (rcCohortIndex .neverTreated 2 2 2 1 exTwice) [1, -1, 2, 1]) =
      (3 ^ 2 + 0 ^ 2 : ℚ) / 4 ^ 2 := by
  constructor <;> decide +kernel

theorem rcRunCell_length (bp : BasePeriod) (est : RCEstimator K) (cg : ControlGroup) (a : ℤ) (y w : β → K)
    (s : List (Obs ι β)) (g : ℤ) (k : ℕ) (att : K) (col : List K)
    (h : rcRunCell bp est cg a y w false s g k = .val att col) : col.length = s.length := by
  unfold rcRunCell at h
  split at h
  · cases h
  · cases h
  · cases h
  · split at h
    · dsimp only at h
      split_ifs at h
      · split at h
        · cases h
        · cases h
        · cases h
          rw [rcColumn, if_neg (by simp), cellIF, scatter_length]
          simp [rcCohortIndex]
    · cases h

theorem mem_of_mapM {α γ : Type*} {f : α → Option γ} {l : List α} {rs : List γ} (h : l.mapM f = some rs) {x : α}
    (hx : x ∈ l) : ∃ r ∈ rs, f x = some r := by
  have hm := mapM_option_some h
  have : f x ∈ l.map f := List.mem_map_of_mem hx
  rw [hm] at this
  obtain ⟨r, hr, e⟩ := List.mem_map.1 this
  exact ⟨r, hr, e.symm⟩

theorem mem_of_mapM' {α γ : Type*} {f : α → Option γ} {l : List α} {rs : List γ} (h : l.mapM f = some rs) {r : γ}
    (hr : r ∈ rs) : ∃ x ∈ l, f x = some r := by
  have hm := mapM_option_some h
  have : some r ∈ rs.map some := List.mem_map_of_mem hr
  rw [← hm] at this
  obtain ⟨x, hx, e⟩ := List.mem_map.1 this
  exact ⟨x, hx, e⟩

theorem mem_cells_universal {nG nP i k : ℕ} (hi : i < nG) (hk : k < nP) : (i, k) ∈ cells .universal nG nP := by
  unfold cells
  rw [List.mem_flatMap]
  exact ⟨i, List.mem_range.2 hi, List.mem_map.2 ⟨k, List.mem_range.2 hk, rfl⟩⟩

/-- **C271, universal base period.** If ids recur, `panel=False`, `allow_unbalanced_panel=False` with the universal base
period raises as soon as one cohort has a base period and one cell (of any cohort) is estimated: the placeholder column
of the base period has one entry per id, the estimated one has one per row. -/
theorem C271_universal_raises (est : RCEstimator K) (cg : ControlGroup) (a : ℤ) (y w : β → K) (s : List (Obs ι β))
    (hid : ¬ (s.map Row.id).Nodup) (i i' k p : ℕ) (g g' b : ℤ) (hg : (groupsOf s)[i]? = some g)
    (hb : lastBefore (periodsOf s) (g - a) = some p) (hpb : (periodsOf s)[p]? = some b)
    (hg' : (groupsOf s)[i']? = some g') (hk : k < (periodsOf s).length) (att : K) (col : List K)
    (hval : rcRunCell .universal est cg a y w false s g' k = .val att col) :
    rcComputeAttGt .universal est cg a y w false s = none := by
  have hne : idCount s ≠ s.length := by
    intro e
    apply hid
    refine List.dedup_eq_self.1 ((List.dedup_sublist _).eq_of_length ?_)
    rw [List.length_map, ← e]
    rfl
  unfold rcComputeAttGt
  cases hrs : (cells .universal (groupsOf s).length (periodsOf s).length).mapM
      (rcProcessCell .universal est cg a y w false s) with
  | none => rfl
  | some rs =>
    have hi := (List.getElem?_eq_some_iff.1 hg).1
    have hi' := (List.getElem?_eq_some_iff.1 hg').1
    have hp := (List.getElem?_eq_some_iff.1 hpb).1
    obtain ⟨r1, hr1, e1⟩ := mem_of_mapM hrs (mem_cells_universal hi hp)
    obtain ⟨r2, hr2, e2⟩ := mem_of_mapM hrs (mem_cells_universal hi' hk)
    have hskip : rcRunCell .universal est cg a y w false s g p = .none_ := by
      unfold rcRunCell planCell
      simp [timeFactor, hpb, hb]
    have ht : ∃ t, (periodsOf s)[k]? = some t := ⟨_, List.getElem?_eq_getElem hk⟩
    obtain ⟨t, ht⟩ := ht
    simp only [rcProcessCell, timeFactor, Nat.add_zero, hg, hpb, hskip, Option.some.injEq] at e1
    simp only [rcProcessCell, timeFactor, Nat.add_zero, hg', ht, hval, Option.some.injEq] at e2
    have hcol := rcRunCell_length .universal est cg a y w s g' k att col hval
    have m1 : List.replicate (idCount s) (0 : K) ∈ (collect rs).2 := by
      rw [collect_eq]
      exact List.mem_map.2 ⟨_, List.mem_filterMap.2 ⟨r1, hr1, by rw [← e1]; rfl⟩, rfl⟩
    have m2 : col ∈ (collect rs).2 := by
      rw [collect_eq]
      exact List.mem_map.2 ⟨_, List.mem_filterMap.2 ⟨r2, hr2, by rw [← e2]; rfl⟩, rfl⟩
    have : columnStack (collect rs).2 = none := by
      unfold columnStack
      rw [if_neg]
      intro hall
      have := hall _ m1 _ m2
      rw [List.length_replicate, hcol] at this
      exact hne this
    simp [this]

/-- A cross-section estimator that returns the difference of the first two outcomes and unit influence values. -/
def exRcEst : RCEstimator ℚ := fun y _ _ _ => .val (y.getD 1 0 - y.getD 0 0) (y.map fun _ => 1)

example : ¬ (exTwice.map Row.id).Nodup ∧ (groupsOf exTwice)[0]? = some 2 ∧
    lastBefore (periodsOf exTwice) (2 - 0) = some 0 ∧ (periodsOf exTwice)[0]? = some 1 ∧
    (match rcRunCell .universal exRcEst .neverTreated 0 id id false exTwice 2 1 with
      | .val _ col => decide (col = [1, 1, 1, 1]) | _ => false) = true ∧
    rcComputeAttGt .universal exRcEst .neverTreated 0 id id false exTwice = none ∧
    (rcComputeAttGt .universal exRcEst .neverTreated 0 id id true exTwice).isSome := by
  refine ⟨by decide +kernel, by decide +kernel, by decide +kernel, by decide +kernel, ?_, by decide +kernel,
    by decide +kernel⟩
  decide +kernel

/-! ## C272 -/

theorem runCell_no_outcomes (bp : BasePeriod) (est : Estimator K) (D : Data K) (h : D.outcomes = []) (i k : ℕ) :
    runCell bp est D i k = .none_ ∨ runCell bp est D i k = .typeError := by
  unfold runCell
  split
  · right; rfl
  · split
    · right; rfl
    · left; rfl
    · right; rfl
    · split
      · right; rfl
      · dsimp only
        split_ifs
        · right; simp [h]
        · left; rfl

theorem unbalanced_outcomes (y : β → K) (s : List (Obs ι β))
    (hu : ∃ u ∈ s.map Row.id, (s.filter fun r => r.id = u).length ≠ (periodsOf s).length) :
    (outcomesFor (dataFormat true true s) y s).getD [] = [] := by
  have : dataFormat true true s = .unbalancedPanel := by
    simp only [dataFormat, Bool.and_self, if_true]
    rw [if_neg]
    intro h
    obtain ⟨u, hu, hn⟩ := hu
    exact hn (h u hu)
  rw [this]
  rfl

/-- **C272 (Violated), unbalanced panels.** With `panel=True, allow_unbalanced_panel=True` and a panel in which some
unit is not observed in every period, `att_gt` never reports an estimate: whatever it returns without raising consists
of the zero placeholders of the universal base period only. -/
theorem C272_unbalanced_never_estimates_violated (bp : BasePeriod) (est : Estimator K) (cg : ControlGroup) (a : ℤ)
    (y w : β → K) (s : List (Obs ι β))
    (hu : ∃ u ∈ s.map Row.id, (s.filter fun r => r.id = u).length ≠ (periodsOf s).length)
    (atts : List (ATTgt K)) (cols : List (List K))
    (h : panelAttGt bp est cg a y w true s = some (atts, cols)) :
    (∀ x ∈ atts, x.att = 0 ∧ bp = .universal) ∧ ∀ c ∈ cols, ∀ v ∈ c, v = 0 := by
  unfold panelAttGt at h
  rw [unbalanced_outcomes y s hu] at h
  unfold computeAttGt at h
  obtain ⟨rs, hrs, hc⟩ := Option.map_eq_some_iff.1 h
  have key : ∀ r ∈ rs, ∀ x c, r = some (x, c) → x.att = 0 ∧ bp = .universal ∧ ∀ v ∈ c, v = 0 := by
    intro r hr x c e
    obtain ⟨q, _, hq⟩ := mem_of_mapM' hrs hr
    subst e
    unfold processCell at hq
    split at hq
    · dsimp only at hq
      rcases runCell_no_outcomes bp est { dataOf cg a y w s with outcomes := [] } rfl q.1 q.2 with e | e
      · rw [e] at hq
        cases bp with
        | universal =>
          simp only [Option.some.injEq, Prod.mk.injEq] at hq
          obtain ⟨rfl, rfl⟩ := hq
          exact ⟨rfl, rfl, fun v hv => List.eq_of_mem_replicate hv⟩
        | varying => simp at hq
      · rw [e] at hq
        simp at hq
    · simp at hq
  rw [collect_eq, Prod.mk.injEq] at hc
  obtain ⟨rfl, rfl⟩ := hc
  constructor
  · intro x hx
    obtain ⟨⟨x', c⟩, hm, rfl⟩ := List.mem_map.1 hx
    obtain ⟨r, hr, e⟩ := List.mem_filterMap.1 hm
    have := key r hr x' c e
    exact ⟨this.1, this.2.1⟩
  · intro c hcm
    obtain ⟨⟨x', c⟩, hm, rfl⟩ := List.mem_map.1 hcm
    obtain ⟨r, hr, e⟩ := List.mem_filterMap.1 hm
    exact (key r hr x' c e).2.2

/-- **C272 (Violated), it raises.** As soon as one cell has a base period and both treated and comparison units, the
whole call raises. -/
theorem C272_unbalanced_raises_violated (bp : BasePeriod) (est : Estimator K) (cg : ControlGroup) (a : ℤ)
    (y w : β → K) (s : List (Obs ι β))
    (hu : ∃ u ∈ s.map Row.id, (s.filter fun r => r.id = u).length ≠ (periodsOf s).length)
    (i k pre : ℕ) (g relevant : ℤ) (hc : (i, k) ∈ cells bp (groupsOf s).length (periodsOf s).length)
    (hg : (groupsOf s)[i]? = some g)
    (hplan : planCell bp (periodsOf s) a g k = some (.run pre))
    (hrel : relevantPeriod (periodsOf s) k pre (timeFactor bp) a = some relevant)
    (h1 : some true ∈ panelCohortIndex cg relevant g (cohortCounts (timeInvariant s)) (idCount s))
    (h0 : some false ∈ panelCohortIndex cg relevant g (cohortCounts (timeInvariant s)) (idCount s)) :
    panelAttGt bp est cg a y w true s = none := by
  unfold panelAttGt
  rw [unbalanced_outcomes y s hu]
  unfold computeAttGt
  rw [Option.map_eq_none_iff]
  cases hrs : (cells bp (dataOf cg a y w s).groups.length (dataOf cg a y w s).periods.length).mapM
      (processCell bp est { dataOf cg a y w s with outcomes := [] }) with
  | none => rfl
  | some rs =>
    exfalso
    obtain ⟨r, _, e⟩ := mem_of_mapM hrs hc
    have hrun : runCell bp est { dataOf cg a y w s with outcomes := [] } i k = .typeError := by
      unfold runCell
      simp [dataOf, hg, hplan, hrel, h1, h0]
    unfold processCell at e
    split at e
    · dsimp only at e
      rw [hrun] at e
      simp at e
    · simp at e

/-- Three units in three periods; unit 2 is not observed in period 2. -/
def exGap : List (Obs ℕ ℚ) :=
  [⟨1, 1, (2, 1)⟩, ⟨2, 1, (⊤, 2)⟩, ⟨3, 1, (⊤, 1)⟩, ⟨1, 2, (2, 5)⟩, ⟨3, 2, (⊤, 3)⟩,
   ⟨1, 3, (2, 6)⟩, ⟨2, 3, (⊤, 2)⟩, ⟨3, 3, (⊤, 4)⟩]

/-- A panel estimator: difference of the first entries. -/
def exPanelEst : Estimator ℚ := fun y1 y0 _ _ => .val (y1.getD 0 0 - y0.getD 0 0) (y1.map fun _ => 1)

example : (∃ u ∈ exGap.map Row.id, (exGap.filter fun r => r.id = u).length ≠ (periodsOf exGap).length) ∧
    (0, 0) ∈ cells .varying (groupsOf exGap).length (periodsOf exGap).length ∧ (groupsOf exGap)[0]? = some 2 ∧
    planCell .varying (periodsOf exGap) 0 2 0 = some (.run 0) ∧
    relevantPeriod (periodsOf exGap) 0 0 (timeFactor .varying) 0 = some 2 ∧
    some true ∈ panelCohortIndex .neverTreated 2 2 (cohortCounts (timeInvariant exGap)) (idCount exGap) ∧
    some false ∈ panelCohortIndex .neverTreated 2 2 (cohortCounts (timeInvariant exGap)) (idCount exGap) ∧
    panelAttGt .varying exPanelEst .neverTreated 0 id id true exGap = none ∧
    (panelAttGt .varying exPanelEst .neverTreated 0 id id false (sortTGI (makeBalanced exGap))).isSome := by
  decide +kernel

/-- **C272, balanced data.** If every unit of the filtered data has as many rows as there are periods, the option
changes nothing: preprocessing and estimation give the same result with and without it. -/
theorem C272_balanced_unaffected (bp : BasePeriod) (est : Estimator K) (cg : ControlGroup) (a : ℤ) (y w : β → K)
    (df : List (Obs ι β))
    (hne : controlGroup cg a (earlyFilter a (encode df)) ≠ [])
    (hb : ∀ u ∈ (controlGroup cg a (earlyFilter a (encode df))).map Row.id,
      ((controlGroup cg a (earlyFilter a (encode df))).filter fun r => r.id = u).length =
        nUnique ((controlGroup cg a (earlyFilter a (encode df))).map Row.t)) :
    panelPipeline true cg a df = panelPipeline false cg a df ∧
    ∀ s, panelPipeline true cg a df = some s →
      panelAttGt bp est cg a y w true s = panelAttGt bp est cg a y w false s := by
  unfold panelPipeline
  dsimp only
  generalize controlGroup cg a (earlyFilter a (encode df)) = d at *
  constructor
  · have hm : makeBalanced d = d := by
      unfold makeBalanced
      split_ifs
      · rfl
      · dsimp only
        rw [List.filter_eq_self]
        intro r hr
        have hid : r.id ∈ d.map Row.id := List.mem_map_of_mem hr
        rw [decide_eq_true_eq, List.mem_map]
        refine ⟨(r.id, (d.filter fun q => q.id = r.id).length), ?_, rfl⟩
        rw [List.mem_filter]
        exact ⟨List.mem_map.2 ⟨r.id, List.mem_dedup.2 hid, rfl⟩, by simpa using hb _ hid⟩
    unfold balance
    simp [hm, hne]
  · intro s hs
    simp only [if_true, Option.map_some, Option.some.injEq] at hs
    have hp : s.Perm d := by rw [← hs]; exact List.perm_insertionSort _ _
    have hlen : (periodsOf s).length = nUnique (d.map Row.t) := by
      unfold periodsOf nUnique
      rw [List.length_insertionSort]
      exact ((hp.map Row.t).dedup).length_eq
    have hf : dataFormat true true s = dataFormat true false s := by
      simp only [dataFormat, Bool.and_self, Bool.and_false, if_true, Bool.false_eq_true, if_false]
      rw [if_pos]
      intro u hu
      rw [hlen, ← hb u ((hp.map Row.id).mem_iff.1 hu)]
      exact (hp.filter _).length_eq
    unfold panelAttGt
    rw [hf]

example : (panelPipeline true .neverTreated 0 (makeBalanced exGap)).isSome ∧
    controlGroup .neverTreated 0 (earlyFilter 0 (encode (makeBalanced exGap))) ≠ [] ∧
    ∀ u ∈ (controlGroup .neverTreated 0 (earlyFilter 0 (encode (makeBalanced exGap)))).map Row.id,
      ((controlGroup .neverTreated 0 (earlyFilter 0 (encode (makeBalanced exGap)))).filter fun r => r.id = u).length =
        nUnique ((controlGroup .neverTreated 0 (earlyFilter 0 (encode (makeBalanced exGap)))).map Row.t) := by
  decide +kernel

end Verif.AttGt
