import Verif.Triple.Multi
import Mathlib.Data.List.Sort
import Mathlib.Algebra.Field.Rat
import Mathlib.Algebra.Order.Ring.Rat
import Mathlib.Tactic.NormNum

/-!
# Triple differences with several periods: C51 (alignment), C53 (units used), C80 (weights)
-/

set_option linter.unusedSectionVars false
set_option linter.unusedSimpArgs false

namespace Verif.Triple

variable {K : Type*} [Field K]

/-! ## C51 -/

/-- Spec: influence value of unit `u` according to the cell's own output. -/
def ownIF (c : CellOut K) (u : ℕ) : K :=
  match c.inf with
  | some (ids, f) => column ids f u
  | none => 0

/-- Column `k` is filled by the `k`-th attempt. -/
lemma matCol_attempt (results : List (Option (CellOut K))) (k u : ℕ) (c : CellOut K) (h : results[k]? = some (some c)) :
    matCol results k u = ownIF c u := by
  unfold matCol ownIF; simp only [h]
  cases c.inf <;> rfl

lemma filterMap_prefix {α : Type*} (l : List (Option α))
    (h : ∀ i j : ℕ, i < j → l[i]? = some none → l[j]? = some none ∨ l[j]? = none) :
    ∀ (k : ℕ) (c : α), (l.filterMap id)[k]? = some c → l[k]? = some (some c) := by
  induction l with
  | nil => intro k c hk; simp at hk
  | cons a l ih =>
    intro k c hk
    have htail : ∀ i j : ℕ, i < j → l[i]? = some none → l[j]? = some none ∨ l[j]? = none := by
      intro i j hij hi
      have := h (i + 1) (j + 1) (by omega) (by simpa using hi)
      simpa using this
    cases a with
    | none =>
      exfalso
      have hall : ∀ x ∈ l, x = none := by
        intro x hx
        obtain ⟨j, hj⟩ := List.mem_iff_getElem?.1 hx
        have := h 0 (j + 1) (by omega) (by simp)
        simp only [List.getElem?_cons_succ, hj] at this
        rcases this with e | e
        · exact Option.some.inj e
        · exact absurd e (by simp)
      have he : (none :: l).filterMap id = [] := by
        rw [List.filterMap_eq_nil_iff]
        intro x hx
        rcases List.mem_cons.1 hx with rfl | hx
        · rfl
        · rw [hall x hx]; rfl
      rw [he] at hk; simp at hk
    | some b =>
      simp only [List.filterMap_cons, id] at hk
      cases k with
      | zero => simpa using hk
      | succ k => simpa using ih htail k c (by simpa using hk)

/-- **C51 (what holds).** If no cell that could not be estimated comes before an estimated one, column `k` of the
returned matrix holds the influence values of the `k`-th returned estimate. -/
theorem C51_aligned_without_gaps (data : List (Row K)) (results : List (Option (CellOut K))) (r : MpResult K)
    (hr : assemble data results = some r)
    (hgap : ∀ i j : ℕ, i < j → results[i]? = some none → results[j]? = some none ∨ results[j]? = none)
    (k : ℕ) (c : CellOut K) (hk : r.entries[k]? = some c) (u : ℕ) : r.mat k u = ownIF c u := by
  unfold assemble at hr
  simp only at hr
  split_ifs at hr with he
  cases hr
  simp only at hk ⊢
  have hlt : k < (results.filterMap id).length := by
    by_contra hge
    rw [List.getElem?_eq_none (by omega)] at hk
    simp at hk
  rw [if_pos hlt]
  exact matCol_attempt _ _ _ _ (filterMap_prefix results hgap k c hk)

lemma processCell_label (inv : ∀ m, (Fin m → Fin m → K) → Fin m → Fin m → K) (est : Estimator K) (universal notyet : Bool)
    (data : List (Row K)) (g t : ℤ) (i : ℕ) (c : CellOut K)
    (h : processCell inv est universal notyet data g t i = some c) : c.g = g ∧ c.t = t := by
  unfold processCell at h
  split at h
  · cases h
  · split_ifs at h with hu
    · cases h; exact ⟨rfl, rfl⟩
    · simp only at h
      split at h
      · cases h
      · rw [Option.map_eq_some_iff] at h
        obtain ⟨x, _, rfl⟩ := h
        exact ⟨rfl, rfl⟩
      · rw [Option.map_eq_some_iff] at h
        obtain ⟨x, _, rfl⟩ := h
        exact ⟨rfl, rfl⟩

/-- **C51 (labels).** The returned estimates are those of the cells that could be estimated, in the order cohort by
cohort and period by period, each under its own cohort and period. -/
theorem C51_labels (inv : ∀ m, (Fin m → Fin m → K) → Fin m → Fin m → K) (est : Estimator K) (universal notyet : Bool)
    (data : List (Row K)) (r : MpResult K) (hr : dddMp inv est universal notyet data = some r) :
    r.entries.map (fun c => (c.g, c.t)) =
      ((attempts universal data).filter fun a =>
        (processCell inv est universal notyet data a.1 a.2.1 a.2.2).isSome).map fun a => (a.1, a.2.1) := by
  unfold dddMp assemble at hr
  simp only at hr
  split_ifs at hr with he
  cases hr
  simp only
  generalize attempts universal data = l
  induction l with
  | nil => rfl
  | cons a l ih =>
    simp only [List.map_cons, List.filterMap_cons, id]
    cases hc : processCell inv est universal notyet data a.1 a.2.1 a.2.2 with
    | none => simp only [List.filter_cons, hc, Option.isSome_none, Bool.false_eq_true, if_false]; exact ih
    | some c =>
      simp only [List.filter_cons, hc, Option.isSome_some, if_true, List.map_cons]
      obtain ⟨h1, h2⟩ := processCell_label _ _ _ _ _ _ _ _ _ hc
      rw [h1, h2]
      exact congrArg (List.cons _) ih

lemma mem_uniqueSorted (l : List ℤ) (x : ℤ) : x ∈ Agg.uniqueSorted l ↔ x ∈ l := by
  unfold Agg.uniqueSorted
  rw [List.mem_insertionSort, List.mem_dedup]

lemma lastPre_none {tlist : List ℤ} {g : ℤ} (h : ∀ s ∈ tlist, g ≤ s) : lastPre tlist g = none := by
  unfold lastPre
  rw [List.getLast?_eq_none_iff, List.filter_eq_nil_iff]
  intro s hs
  have := h s hs
  simp only [decide_eq_true_eq]; omega

/-- A cohort already treated in the first period has no estimable cell. -/
lemma processCell_always (inv : ∀ m, (Fin m → Fin m → K) → Fin m → Fin m → K) (est : Estimator K)
    (universal notyet : Bool) (data : List (Row K)) (g t : ℤ) (i : ℕ) (hg : ∀ s ∈ tlistOf data, g ≤ s) (ht : t ∈ tlistOf data) :
    processCell inv est universal notyet data g t i = none := by
  unfold processCell
  have : pretOf universal (tlistOf data) g t i = none := by
    unfold pretOf
    split
    · rfl
    · rw [if_pos (hg t ht), lastPre_none hg]
  rw [this]

/-- **C51 (violated in general).** If the earliest cohort is already treated in the first period, then the first
columns of the returned influence matrix, one for every period attempted, are zero for every unit, although the estimates
standing at those positions belong to later cohorts. -/
theorem C51_always_treated_cohort_violated (inv : ∀ m, (Fin m → Fin m → K) → Fin m → Fin m → K) (est : Estimator K)
    (universal notyet : Bool) (data : List (Row K)) (r : MpResult K) (hr : dddMp inv est universal notyet data = some r)
    (g : ℤ) (rest : List ℤ) (hgl : glistOf data = g :: rest) (hg : ∀ s ∈ tlistOf data, g ≤ s)
    (k : ℕ) (hk : k < (tlistOf data).length - (if universal then 0 else 1)) :
    (∀ u, r.mat k u = 0) ∧ ∀ c, r.entries[k]? = some c → c.g ∈ rest := by
  have hlab := C51_labels inv est universal notyet data r hr
  have hnone : ∀ a ∈ attempts universal data, a.1 = g →
      processCell inv est universal notyet data a.1 a.2.1 a.2.2 = none := by
    intro a ha hag
    rw [hag]
    refine processCell_always _ _ _ _ _ _ _ _ hg ?_
    unfold attempts at ha
    simp only [List.mem_flatMap, List.mem_map, List.mem_range] at ha
    obtain ⟨g', _, i, hi, rfl⟩ := ha
    simp only
    have : i + (if universal = true then 0 else 1) < (tlistOf data).length := by omega
    rw [List.getElem?_eq_getElem this, Option.getD_some]
    exact List.getElem_mem _
  constructor
  · intro u
    unfold dddMp assemble at hr
    simp only at hr
    split_ifs at hr with he
    cases hr
    simp only
    split_ifs with hlt
    · have hatt : (attempts universal data)[k]? =
          some (g, ((tlistOf data)[k + (if universal = true then 0 else 1)]?).getD 0, k) := by
        unfold attempts
        rw [hgl]
        simp only [List.flatMap_cons]
        rw [List.getElem?_append_left (by simpa using hk), List.getElem?_map,
          List.getElem?_range (by simpa using hk)]
        rfl
      unfold matCol
      rw [List.getElem?_map, hatt]
      simp only [Option.map_some]
      have := hnone _ (List.mem_of_getElem? hatt) rfl
      simp only at this
      rw [this]
    · rfl
  · intro c hc
    have hm : (c.g, c.t) ∈ r.entries.map (fun c => (c.g, c.t)) := List.mem_map_of_mem (List.mem_of_getElem? hc)
    rw [hlab] at hm
    simp only [List.mem_map, List.mem_filter] at hm
    obtain ⟨a, ⟨ha, hs⟩, he⟩ := hm
    have hag : a.1 ≠ g := fun hag => by
      rw [hnone a ha hag] at hs
      exact absurd hs (by simp)
    have hin : a.1 ∈ glistOf data := by
      unfold attempts at ha
      simp only [List.mem_flatMap, List.mem_map, List.mem_range] at ha
      obtain ⟨g', hg', i, hi, rfl⟩ := ha
      exact hg'
    rw [hgl] at hin
    have hcg : c.g = a.1 := (congrArg Prod.fst he).symm
    rw [hcg]
    exact (List.mem_cons.1 hin).resolve_left hag

/-! ### A concrete run -/

/-- Plain mean change of a subgroup. -/
def exChange (l : List (Row ℚ × Row ℚ × ℕ)) (k : ℕ) : ℚ :=
  let s := (l.filter fun p => p.2.2 = k).map fun p => p.1.y - p.2.1.y
  s.sum / s.length

/-- Triple difference of mean changes with the matching influence values. -/
def exEst : Estimator ℚ := fun l =>
  some ((exChange l 4 - exChange l 3) - (exChange l 2 - exChange l 1),
    l.map fun p => (l.length : ℚ) / ((l.filter fun q => q.2.2 = p.2.2).length : ℚ) *
      (if p.2.2 = 4 ∨ p.2.2 = 1 then 1 else -1) * ((p.1.y - p.2.1.y) - exChange l p.2.2))

/-- One cohort: eligible units 10 k + 1, 10 k + 2 and ineligible unit 10 k + 3 in periods 1, 2, 3. -/
def exCohort (k : ℕ) (g : Option ℤ) (a b c : List ℚ) : List (Row ℚ) :=
  (List.zipWith (fun (i : ℕ) (y : ℚ) => ⟨10 * k + 1, (i : ℤ) + 1, g, true, y⟩) (List.range 3) a) ++
  (List.zipWith (fun (i : ℕ) (y : ℚ) => ⟨10 * k + 2, (i : ℤ) + 1, g, true, y⟩) (List.range 3) b) ++
  (List.zipWith (fun (i : ℕ) (y : ℚ) => ⟨10 * k + 3, (i : ℤ) + 1, g, false, y⟩) (List.range 3) c)

/-- Cohorts 1 (treated from the first period on), 3 and never treated. -/
def exData : List (Row ℚ) :=
  exCohort 1 (some 1) [5, 6, 7] [4, 5, 6] [1, 1, 2] ++ exCohort 2 (some 3) [1, 2, 9] [2, 2, 6] [1, 1, 2] ++
  exCohort 3 (some 0) [1, 1, 2] [3, 2, 1] [1, 2, 2]

/-- The same without the cohort treated from the first period on. -/
def exData' : List (Row ℚ) :=
  exCohort 2 (some 3) [1, 2, 9] [2, 2, 6] [1, 1, 2] ++ exCohort 3 (some 0) [1, 1, 2] [3, 2, 1] [1, 2, 2]

def exInv (m : ℕ) (A : Fin m → Fin m → ℚ) : Fin m → Fin m → ℚ := A

/-- The always treated cohort makes the only post-treatment estimate come out with an influence column that is zero for
every unit, whereas its own influence values are not. -/
def exViolation (universal : Bool) (k : ℕ) : Prop :=
  ∃ r c, dddMp exInv exEst universal false exData = some r ∧ r.entries[k]? = some c ∧ c.g ≤ c.t ∧
    (∀ u ∈ r.ids, r.mat k u = 0) ∧ r.se2 k = 0 ∧ ∃ u ∈ r.ids, ownIF c u ≠ 0

def exCheck (universal : Bool) (k : ℕ) : Bool :=
  match dddMp exInv exEst universal false exData with
  | none => false
  | some r => match r.entries[k]? with
    | none => false
    | some c => decide (c.g ≤ c.t) && r.ids.all (fun u => decide (r.mat k u = 0)) && decide (r.se2 k = 0) &&
        r.ids.any (fun u => decide (ownIF c u ≠ 0))

lemma exCheck_sound (universal : Bool) (k : ℕ) (h : exCheck universal k = true) : exViolation universal k := by
  unfold exCheck at h
  unfold exViolation
  split at h
  · cases h
  · rename_i r hr
    split at h
    · cases h
    · rename_i c hc
      simp only [Bool.and_eq_true, decide_eq_true_eq, List.all_eq_true, List.any_eq_true] at h
      obtain ⟨⟨⟨h1, h2⟩, h3⟩, u, h4, h5⟩ := h
      exact ⟨r, c, hr, hc, h1, h2, h3, u, h4, h5⟩

/-- **C51 (violated).** In a concrete data set the post-treatment estimate is returned with an influence column that is
zero everywhere (and standard error zero), although the estimate's own influence values are not zero: with a varying base period
(position 1) and with a universal one (position 2). -/
theorem C51_zero_column_violated : exViolation false 1 ∧ exViolation true 2 :=
  ⟨exCheck_sound false 1 (by decide +kernel), exCheck_sound true 2 (by decide +kernel)⟩

/-- Without that cohort nothing is skipped and the column is the right one. -/
example : ∃ r c, dddMp exInv exEst false false exData' = some r ∧ r.entries[1]? = some c ∧
    (∀ u, r.mat 1 u = ownIF c u) ∧ ∃ u, r.mat 1 u ≠ 0 := by
  have h1 : (dddMp exInv exEst false false exData').isSome = true := by decide +kernel
  obtain ⟨r, hr⟩ := Option.isSome_iff_exists.1 h1
  have hall : ((attempts false exData').map fun a =>
    processCell exInv exEst false false exData' a.1 a.2.1 a.2.2).all Option.isSome = true := by decide +kernel
  have h2 : ((dddMp exInv exEst false false exData').bind fun r => r.entries[1]?).isSome = true := by decide +kernel
  rw [hr] at h2
  obtain ⟨c, hc⟩ := Option.isSome_iff_exists.1 h2
  have hm := C51_aligned_without_gaps exData' _ r hr (fun i j _ hi => by
    have := List.all_eq_true.1 hall _ (List.mem_of_getElem? hi)
    simp at this) 1 c hc
  refine ⟨r, c, hr, hc, hm, 21, ?_⟩
  have h3 : ((dddMp exInv exEst false false exData').map fun r => r.mat 1 21).any (fun v => decide (v ≠ 0)) = true := by
    decide +kernel
  rw [hr] at h3
  simpa using h3

end Verif.Triple
