import Verif.Triple.Cells
import Mathlib.Algebra.Field.Basic
import Mathlib.Algebra.CharZero.Defs
import Mathlib.Tactic.FieldSimp
import Mathlib.Tactic.Ring

/-!
# What a cell of `ddd_mp` hands to the estimator and how its influence values are scaled: C52, C53, C80
-/

set_option linter.unusedSectionVars false
set_option linter.unusedSimpArgs false

namespace Verif.Triple

variable {K : Type*} [Field K]

/-- **C52 (subgroups).** Whatever estimator is used, it is called once per comparison, with the units observed in both
periods, and the code of a unit is 4 (cohort of the cell, eligible), 3 (cohort of the cell, not eligible), 2 (comparison
cohort, eligible) or 1 (comparison cohort, not eligible) according to its own row. -/
theorem C52_subgroups (est : Estimator K) (g t pret : ℤ) (rows : List (Row K)) (x : K × List K × List ℕ)
    (h : singleDDD est g t pret rows = some x) :
    ∃ l : List (Row K × Row K × ℕ), est l = some (x.1, x.2.1) ∧ l.map (fun e => e.1.id) = x.2.2 ∧
      ∀ e ∈ l, e.1 ∈ rows ∧ e.1.time = t ∧
        (e.2.2 = 4 ↔ e.1.g = some g ∧ e.1.elig = true) ∧ (e.2.2 = 3 ↔ e.1.g = some g ∧ e.1.elig = false) ∧
        (e.2.2 = 2 ↔ e.1.g ≠ some g ∧ e.1.elig = true) ∧ (e.2.2 = 1 ↔ e.1.g ≠ some g ∧ e.1.elig = false) := by
  unfold singleDDD at h
  simp only at h
  split_ifs at h with h1 h2
  split at h
  · cases h
  · rename_i a f he
    cases h
    refine ⟨_, he, by rw [List.map_map]; rfl, ?_⟩
    intro e he'
    obtain ⟨p, hp, rfl⟩ := List.mem_map.1 he'
    obtain ⟨h3, h4, _⟩ := pairs_fst_mem _ _ _ _ hp
    refine ⟨h3, h4, ?_⟩
    simp only
    unfold subgroupOf
    by_cases hg : p.1.g = some g <;> cases hel : p.1.elig <;> simp [hg, hel]

example : (singleDDD exEst 3 3 2 exData).isSome = true := by decide +kernel

lemma column_not_mem (ids : List ℕ) (f : List K) (u : ℕ) (h : u ∉ ids) : column ids f u = 0 := by
  unfold column
  rw [List.idxOf?_eq_none_iff.2 h]

lemma idxOf?_some {ids : List ℕ} {u : ℕ} (h : u ∈ ids) :
    ∃ k, ∃ hk : k < ids.length, ids.idxOf? u = some k ∧ ids[k] = u := by
  cases hk : ids.idxOf? u with
  | none => rw [List.idxOf?_eq_none_iff] at hk; exact absurd h hk
  | some k =>
    unfold List.idxOf? at hk
    rw [List.findIdx?_eq_some_iff_getElem] at hk
    obtain ⟨hk1, hk2, _⟩ := hk
    exact ⟨k, hk1, rfl, by simpa using hk2⟩

lemma placed_eq (cellIds : List ℕ) (f : List K) (ids : List ℕ) (i : Fin cellIds.length) :
    placed cellIds f ids i = ((cellIds.length : K) / (ids.length : K)) * column ids f cellIds[i] := by
  unfold placed column
  cases ids.idxOf? cellIds[i] <;> simp

lemma column_map_scale (ids : List ℕ) (f : List K) (s : K) (u : ℕ) :
    column ids (f.map fun v => s * v) u = s * column ids f u := by
  unfold column
  cases ids.idxOf? u with
  | none => simp
  | some k => simp only [List.getElem?_map]; cases f[k]? <;> simp

lemma column_finRange (ids : List ℕ) (φ : Fin ids.length → K) {u : ℕ} (h : u ∈ ids) :
    ∃ i : Fin ids.length, ids[i] = u ∧ column ids ((List.finRange ids.length).map φ) u = φ i := by
  obtain ⟨k, hk, h1, h2⟩ := idxOf?_some h
  refine ⟨⟨k, hk⟩, h2, ?_⟩
  unfold column
  rw [h1]
  simp [hk]

/-- Spec: the rows of one comparison: cohort of the cell and one comparison cohort. -/
def comparison (g : ℤ) (c : Option ℤ) (cell : List (Row K)) : List (Row K) :=
  cell.filter fun r => decide (r.g = some g) || decide (r.g = c)

/-- Spec: influence value of a unit in one comparison rescaled to a sample of `n` units; units outside have none. -/
def rescaled (n : ℕ) (x : K × List K × List ℕ) (u : ℕ) : K := ((n : K) / (x.2.2.length : K)) * column x.2.2 x.2.1 u

/-- **C53 (influence values of a cell).** The estimate of a cell is a weighted sum of the estimates of its comparisons,
each made of the cohort and one comparison cohort, and with the same weights the influence value of every unit is the
weighted sum of its influence values in the comparisons, each rescaled by (units of the data) / (units of that
comparison).  With a single comparison its weight is one. -/
theorem C53_cell_influence [CharZero K] (inv : ∀ m, (Fin m → Fin m → K) → Fin m → Fin m → K) (est : Estimator K)
    (universal notyet : Bool) (data : List (Row K)) (g t : ℤ) (i : ℕ) (c : CellOut K)
    (h : processCell inv est universal notyet data g t i = some c) (hi : c.inf.isSome = true) :
    ∃ (pret : ℤ) (comps : List (Option ℤ × K × List K × List ℕ)) (w : Fin comps.length → K),
      pretOf universal (tlistOf data) g t i = some pret ∧ comps ≠ [] ∧
      (∀ x ∈ comps, x.1 ≠ some g ∧ singleDDD est g t pret (comparison g x.1 (cellData notyet g t pret data)) = some x.2) ∧
      c.att = ∑ a, w a * comps[a].2.1 ∧
      (∀ u, ownIF c u = ∑ a, w a * rescaled (idsOf data).length comps[a].2 u) ∧
      (c.se2 = none → comps.length = 1 ∧ ∀ a, w a = 1) := by
  have hav : ∀ pret x, x ∈ availableControls g (cellData notyet g t pret data) → x ≠ some g := by
    intro pret x hx
    unfold availableControls at hx
    rw [List.mem_dedup, List.mem_map] at hx
    obtain ⟨r, hr, rfl⟩ := hx
    simpa using (List.mem_filter.1 hr).2
  unfold processCell at h
  split at h
  · cases h
  · rename_i pret hp
    refine ⟨pret, ?_⟩
    split_ifs at h with hu
    · cases h; cases hi
    · simp only at h
      split at h
      · cases h
      · rename_i c0 hc0
        rw [Option.map_eq_some_iff] at h
        obtain ⟨x, hx, rfl⟩ := h
        refine ⟨[(c0, x)], fun _ => 1, hp, by simp, ?_, by simp, ?_, by simp⟩
        · intro y hy
          rw [List.mem_singleton] at hy
          subst hy
          refine ⟨hav pret _ (by rw [hc0]; simp), ?_⟩
          have : comparison g c0 (cellData notyet g t pret data) = cellData notyet g t pret data := by
            unfold comparison
            rw [List.filter_eq_self]
            intro r hr
            by_cases hg : r.g = some g
            · simp [hg]
            · have : r.g ∈ availableControls g (cellData notyet g t pret data) := by
                unfold availableControls
                rw [List.mem_dedup]
                exact List.mem_map_of_mem (List.mem_filter.2 ⟨hr, by simpa using hg⟩)
              rw [hc0, List.mem_singleton] at this
              simp [this]
          rw [this]; exact hx
        · intro u
          unfold ownIF rescaled
          simp only [column_map_scale]
          simp
      · rename_i cs _ _
        rw [Option.map_eq_some_iff] at h
        obtain ⟨x, hx, rfl⟩ := h
        unfold multiControls at hx
        simp only at hx
        split_ifs at hx with hemp
        cases hx
        set cell := cellData notyet g t pret data with hcell
        -- pair every result with its comparison cohort
        set ctrls := availableControls g cell with hctrls
        set comps : List (Option ℤ × K × List K × List ℕ) := ctrls.filterMap fun k =>
          (singleDDD est g t pret (comparison g k cell)).map fun x => (k, x) with hcomps
        have hres : (ctrls.filterMap fun k => singleDDD est g t pret
            (cell.filter fun r => decide (r.g = some g) || decide (r.g = k))) = comps.map Prod.snd := by
          rw [hcomps, List.map_filterMap]
          congr 1
          funext k
          show _ = Option.map _ (Option.map _ _)
          rw [Option.map_map]
          unfold comparison
          simp [Function.comp_def]
        set res := ctrls.filterMap fun k => singleDDD est g t pret
            (cell.filter fun r => decide (r.g = some g) || decide (r.g = k)) with hresdef
        have hlen : comps.length = res.length := by rw [hres, List.length_map]
        have hget : ∀ a : Fin comps.length, comps[a].2 = res[Fin.cast hlen a] := by
          intro a
          simp only [Fin.getElem_fin, Fin.val_cast, hres, List.getElem_map]
        set cellIds := ((res.flatMap fun r => r.2.2).dedup).insertionSort (· ≤ ·) with hcids
        set W := gmmW (inv res.length (cov fun (i : Fin cellIds.length) (a : Fin res.length) =>
          placed cellIds res[a].2.1 res[a].2.2 i)) with hW
        refine ⟨comps, fun a => W (Fin.cast hlen a), hp, ?_, ?_, ?_, ?_, by simp⟩
        · intro h0
          rw [h0, List.map_nil] at hres
          exact hemp (by rw [hres]; rfl)
        · intro y hy
          rw [hcomps, List.mem_filterMap] at hy
          obtain ⟨k, hk, hy⟩ := hy
          rw [Option.map_eq_some_iff] at hy
          obtain ⟨z, hz, rfl⟩ := hy
          exact ⟨hav pret k hk, hz⟩
        · show (∑ a, W a * (res[a]).1) = _
          refine (Fintype.sum_equiv (finCongr hlen) _ _ fun a => ?_).symm
          rw [hget]; rfl
        · intro u
          unfold ownIF
          simp only
          by_cases hmem : u ∈ cellIds
          · obtain ⟨i, hi1, hi2⟩ := column_finRange cellIds (fun i =>
              (((idsOf data).length : K) / (cellIds.length : K)) * (∑ a, placed cellIds res[a].2.1 res[a].2.2 i * W a)) hmem
            refine Eq.trans hi2 ?_
            have hne : (cellIds.length : K) ≠ 0 := by
              have : cellIds.length ≠ 0 := fun h0 => by
                have := i.2; omega
              exact_mod_cast this
            rw [Finset.mul_sum]
            refine (Fintype.sum_equiv (finCongr hlen) _ _ fun a => ?_).symm
            rw [placed_eq, hi1, hget]
            unfold rescaled
            simp only [finCongr_apply]
            field_simp
          · rw [column_not_mem _ _ _ hmem]
            symm
            refine Finset.sum_eq_zero fun a _ => ?_
            unfold rescaled
            rw [column_not_mem, mul_zero, mul_zero]
            intro hu'
            apply hmem
            rw [hcids, List.mem_insertionSort, List.mem_dedup, List.mem_flatMap]
            refine ⟨res[Fin.cast hlen a], by simp, ?_⟩
            rw [← hget]; exact hu'

example : ((processCell exInv exEst false true exData 3 3 1).bind CellOut.inf).isSome = true := by decide +kernel

/-- **C53 (standard error of a single comparison).** The squared standard error reported for a cell with one comparison
cohort is the sum of squared influence values of that comparison over the squared number of its units, as in the
two-period estimator: the other units of the data set do not matter. -/
theorem C53_single_se [CharZero K] (inv : ∀ m, (Fin m → Fin m → K) → Fin m → Fin m → K) (est : Estimator K)
    (universal notyet : Bool) (data : List (Row K)) (g t : ℤ) (i : ℕ) (c : CellOut K)
    (h : processCell inv est universal notyet data g t i = some c) (hi : c.inf.isSome = true) (hs : c.se2 = none)
    (results : List (Option (CellOut K))) (k : ℕ) (hk : results[k]? = some (some c)) :
    ∃ (pret : ℤ) (ctrl : Option ℤ) (x : K × List K × List ℕ),
      singleDDD est g t pret (comparison g ctrl (cellData notyet g t pret data)) = some x ∧ c.att = x.1 ∧
      reportedSe2 (idsOf data) results k =
        ((idsOf data).map fun u => column x.2.2 x.2.1 u ^ 2).sum / (x.2.2.length : K) ^ 2 := by
  obtain ⟨pret, comps, w, _, _, h1, h2, h3, h4⟩ := C53_cell_influence inv est universal notyet data g t i c h hi
  obtain ⟨hlen, hw⟩ := h4 hs
  obtain ⟨x, rfl⟩ := List.length_eq_one_iff.1 hlen
  refine ⟨pret, x.1, x.2, (h1 x (by simp)).2, ?_, ?_⟩
  · rw [h2]; simp [hw]
  · unfold reportedSe2 seEntry
    simp only [hk, hs]
    have hcol : ∀ u, matCol results k u = rescaled (idsOf data).length x.2 u := by
      intro u
      rw [matCol_attempt results k u c hk, h3 u]
      simp [hw]
    simp only [hcol]
    cases hn : (idsOf data) with
    | nil => simp
    | cons a l =>
      rw [← hn]
      have hN : ((idsOf data).length : K) ≠ 0 := by
        have : (idsOf data).length ≠ 0 := by rw [hn]; simp
        exact_mod_cast this
      have : ((idsOf data).map fun u => rescaled (idsOf data).length x.2 u * rescaled (idsOf data).length x.2 u) =
          (idsOf data).map fun u => (((idsOf data).length : K) ^ 2 / (x.2.2.2.length : K) ^ 2) * column x.2.2.2 x.2.2.1 u ^ 2 := by
        refine List.map_congr_left fun u _ => ?_
        unfold rescaled; ring
      rw [this, List.sum_map_mul_left]
      by_cases hx : (x.2.2.2.length : K) = 0
      · simp [hx]
      · field_simp

example : (processCell exInv exEst false false exData 3 3 1).map (fun c => (c.se2.isNone, c.inf.isSome)) = some (true, true) := by
  decide +kernel

/-- **C80 (what is forwarded).** With more than two periods the entry point is `ddd_mp` with the same base period, the
same comparison group and the same data. -/
theorem C80_options_forwarded (inv : ∀ m, (Fin m → Fin m → K) → Fin m → Fin m → K) (est : Estimator K)
    (universal notyet : Bool) (data : List (Row K)) (w : ℕ → K) (r : MpResult K)
    (h : dddEntryMulti inv est universal notyet data w = some r) :
    ∀ c ∈ r.entries, ∃ a ∈ attempts universal data, a.1 = c.g ∧ a.2.1 = c.t ∧
      processCell inv est universal notyet data a.1 a.2.1 a.2.2 = some c := by
  unfold dddEntryMulti dddMp assemble at h
  simp only at h
  split_ifs at h
  cases h
  intro c hc
  simp only [List.mem_filterMap, List.mem_map, id] at hc
  obtain ⟨_, ⟨a, ha, rfl⟩, hc⟩ := hc
  obtain ⟨h1, h2⟩ := processCell_label inv est universal notyet data _ _ _ _ hc
  exact ⟨a, ha, h1.symm, h2.symm, hc⟩

example : (attsOf (dddEntryMulti exInv exEst false true exData wObs)).isSome = true := by decide +kernel

end Verif.Triple
