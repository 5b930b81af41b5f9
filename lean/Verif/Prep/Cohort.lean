import Verif.Prep.Tensor

/-!
# C19: the treated and comparison units of a (g,t) cell

Models `get_did_cohort_index` (`moderndid/did/compute_att_gt.py:207-303`) and the `cohort_counts` table
(`moderndid/core/preprocess/tensors.py:70-74`).  A cell code is `some true` (1, treated), `some false`
(0, comparison) or `none` (NaN, not used).
-/

set_option linter.unusedSectionVars false

namespace Verif.Prep

open Verif.Panel

variable {ι β : Type*}

/-- `cohort_counts`: cohorts of the time-invariant table in order of appearance with their sizes,
`tensors.py:70-74`. -/
def cohortCounts (tid : List (Obs ι β)) : List (WithTop ℤ × ℕ) :=
  (uniqStable (tid.map cohort)).map fun c => (c, (tid.map cohort).count c)

/-- `cohort_sizes[:j].sum()`, `compute_att_gt.py:262-263,271-272`. -/
def sizesBefore {α : Type*} (counts : List (α × ℕ)) (j : ℕ) : ℕ := ((counts.map Prod.snd).take j).sum

/-- `cohort_index[a:b] = v`. -/
def setSlice {γ : Type*} (l : List γ) (a b : ℕ) (v : γ) : List γ :=
  l.mapIdx fun k x => if a ≤ k ∧ k < b then v else x

/-- `relevant_period`, `compute_att_gt.py:237-239` and `287-289`. -/
def relevantPeriod (periods : List ℤ) (timeIdx preIdx timeFactor : ℕ) (anticip : ℤ) : Option ℤ :=
  periods[max timeIdx preIdx + timeFactor]?.map (· + anticip)

/-- Lower end of the comparison cohorts, `compute_att_gt.py:235-243`. -/
def minControl (cg : ControlGroup) (relevant : ℤ) (cohorts : List (WithTop ℤ)) : WithTop ℤ :=
  match cg with
  | .notYetTreated => (cohorts.find? fun c => (relevant : WithTop ℤ) < c).getD ⊤
  | .neverTreated => ⊤

/-- Upper end of the comparison cohorts, `compute_att_gt.py:245-252`. -/
def maxControl (cohorts : List (WithTop ℤ)) : WithTop ℤ :=
  if ⊤ ∈ cohorts then ⊤ else cohorts.getLast?.getD ⊤

/-- The loop over the selected cohorts, `compute_att_gt.py:258-263`. -/
def paintBlocks {α γ : Type*} (counts : List (α × ℕ)) (mask : α → Bool) (v : γ) (idx0 : List γ) (js : List ℕ) :
    List γ :=
  js.foldl (fun idx j =>
    match counts[j]? with
    | some (c, _) => if mask c then
        setSlice idx (sizesBefore counts j) (sizesBefore counts (j + 1)) v else idx
    | none => idx) idx0

/-- `get_did_cohort_index`, panel branch, `compute_att_gt.py:234-273`. -/
def panelCohortIndex (cg : ControlGroup) (relevant : ℤ) (g : ℤ) (counts : List (WithTop ℤ × ℕ)) (n : ℕ) :
    List (Option Bool) :=
  let cohorts := counts.map Prod.fst
  let idx1 := paintBlocks counts
    (fun c => minControl cg relevant cohorts ≤ c ∧ c ≤ maxControl cohorts) (some false)
    (List.replicate n none) (List.range counts.length)
  match counts.findIdx? fun p => p.1 = (g : WithTop ℤ) with
  | none => idx1
  | some j => setSlice idx1 (sizesBefore counts j) (sizesBefore counts (j + 1)) (some true)

/-- `get_did_cohort_index`, repeated cross-section branch, `compute_att_gt.py:275-301`. -/
def rcCohortIndex (cg : ControlGroup) (relevant : ℤ) (g tCell tBase : ℤ) (df : List (Obs ι β)) :
    List (Option Bool) :=
  df.map fun r =>
    let treated : Bool := cohort r = (g : WithTop ℤ)
    let control : Bool := match cg with
      | .neverTreated => cohort r = ⊤
      | .notYetTreated => cohort r = ⊤ ∨ ((relevant : WithTop ℤ) < cohort r ∧ cohort r ≠ (g : WithTop ℤ))
    let keep : Bool := r.t = tCell ∨ r.t = tBase
    if keep ∧ treated then some true else if keep ∧ control then some false else none

/-! ## Specification -/

/-- The documented comparison units of a cell of cohort `g`. -/
def IsComparison (cg : ControlGroup) (relevant : ℤ) (c : WithTop ℤ) : Prop :=
  match cg with
  | .neverTreated => c = ⊤
  | .notYetTreated => (relevant : WithTop ℤ) < c

instance (cg : ControlGroup) (relevant : ℤ) (c : WithTop ℤ) : Decidable (IsComparison cg relevant c) := by
  unfold IsComparison; cases cg <;> infer_instance

/-- The documented role of a unit of cohort `c` in a cell of cohort `g`. -/
def role (cg : ControlGroup) (relevant g : ℤ) (c : WithTop ℤ) : Option Bool :=
  if c = (g : WithTop ℤ) then some true else if IsComparison cg relevant c then some false else none

/-! ## Lemmas -/

theorem sizesBefore_cons_succ {α : Type*} (p : α × ℕ) (counts : List (α × ℕ)) (j : ℕ) :
    sizesBefore (p :: counts) (j + 1) = p.2 + sizesBefore counts j := by
  simp [sizesBefore]

theorem sizesBefore_zero {α : Type*} (counts : List (α × ℕ)) : sizesBefore counts 0 = 0 := by
  simp [sizesBefore]

/-- Layout of consecutive blocks. -/
theorem blocks_get {α : Type*} : ∀ (counts : List (α × ℕ)) (j k : ℕ) (hj : j < counts.length),
    sizesBefore counts j ≤ k → k < sizesBefore counts (j + 1) →
    (counts.flatMap fun p => List.replicate p.2 p.1)[k]? = some (counts[j].1)
  | [], j, k, hj, _, _ => by simp at hj
  | p :: counts, 0, k, _, _, h2 => by
    rw [sizesBefore_cons_succ, sizesBefore_zero] at h2
    rw [List.flatMap_cons, List.getElem?_append_left (by simpa using h2)]
    simp [List.getElem?_replicate]; omega
  | p :: counts, j + 1, k, hj, h1, h2 => by
    rw [sizesBefore_cons_succ] at h1 h2
    rw [List.flatMap_cons, List.getElem?_append_right (by simp; omega)]
    have := blocks_get counts j (k - p.2) (by simpa using hj) (by omega) (by omega)
    simpa using this

theorem blocks_exists {α : Type*} : ∀ (counts : List (α × ℕ)) (k : ℕ),
    k < (counts.flatMap fun p => List.replicate p.2 p.1).length →
    ∃ j, j < counts.length ∧ sizesBefore counts j ≤ k ∧ k < sizesBefore counts (j + 1)
  | [], k, h => by simp at h
  | p :: counts, k, h => by
    by_cases hk : k < p.2
    · exact ⟨0, by simp, by simp [sizesBefore_zero], by rw [sizesBefore_cons_succ, sizesBefore_zero]; omega⟩
    · obtain ⟨j, h1, h2, h3⟩ := blocks_exists counts (k - p.2) (by
        rw [List.flatMap_cons, List.length_append, List.length_replicate] at h; omega)
      exact ⟨j + 1, by simpa using h1, by rw [sizesBefore_cons_succ]; omega, by
        rw [sizesBefore_cons_succ]; omega⟩

theorem uniqStable_sublist {α : Type*} [DecidableEq α] (l : List α) : (uniqStable l).Sublist l := by
  unfold uniqStable
  have := (List.dedup_sublist l.reverse).reverse
  rwa [List.reverse_reverse] at this

theorem uniqStable_nodup {α : Type*} [DecidableEq α] (l : List α) : (uniqStable l).Nodup :=
  List.nodup_reverse.2 (List.nodup_dedup _)

theorem mem_uniqStable {α : Type*} [DecidableEq α] {l : List α} {x : α} : x ∈ uniqStable l ↔ x ∈ l := by
  simp [uniqStable]

/-- A sorted list is the concatenation of the blocks of its distinct values. -/
theorem sorted_eq_replicate {α : Type*} [LinearOrder α] {l : List α} (h : l.Pairwise (· ≤ ·)) :
    ((uniqStable l).flatMap fun c => List.replicate (l.count c) c) = l := by
  have hp : ((uniqStable l).flatMap fun c => List.replicate (l.count c) c).Perm l := by
    rw [List.perm_iff_count]
    intro x
    rw [List.count_flatMap]
    by_cases hx : x ∈ l
    · have hx' : x ∈ uniqStable l := mem_uniqStable.2 hx
      have : ∀ (u : List α), u.Nodup → x ∈ u →
          (List.map (List.count x ∘ fun c => List.replicate (l.count c) c) u).sum = l.count x := by
        intro u
        induction u with
        | nil => intro _ h; simp at h
        | cons a u ih =>
          intro hn hxu
          rw [List.map_cons, List.sum_cons, Function.comp, List.count_replicate]
          rw [List.nodup_cons] at hn
          rcases List.mem_cons.1 hxu with rfl | hxu'
          · have : (List.map (List.count x ∘ fun c => List.replicate (l.count c) c) u).sum = 0 := by
              rw [List.sum_eq_zero]
              intro y hy
              obtain ⟨c, hc, rfl⟩ := List.mem_map.1 hy
              rw [Function.comp, List.count_replicate, if_neg]
              simp only [beq_iff_eq]
              rintro rfl; exact hn.1 hc
            simp [this]
          · rw [if_neg, ih hn.2 hxu', Nat.zero_add]
            simp only [beq_iff_eq]
            rintro rfl; exact hn.1 hxu'
      exact this _ (uniqStable_nodup l) hx'
    · rw [List.count_eq_zero.2 hx, List.sum_eq_zero]
      intro y hy
      obtain ⟨c, hc, rfl⟩ := List.mem_map.1 hy
      rw [Function.comp, List.count_replicate, if_neg]
      simp only [beq_iff_eq]
      rintro rfl; exact hx (mem_uniqStable.1 hc)
  refine List.Perm.eq_of_pairwise (le := (· ≤ ·)) (fun a b _ _ h1 h2 => le_antisymm h1 h2) ?_ h hp
  rw [List.pairwise_flatMap]
  refine ⟨fun c _ => List.pairwise_replicate.2 (Or.inr le_rfl), ?_⟩
  refine (h.sublist (uniqStable_sublist l)).imp ?_
  intro a b hab x hx y hy
  rw [List.eq_of_mem_replicate hx, List.eq_of_mem_replicate hy]
  exact hab

theorem cohortCounts_flat {tid : List (Obs ι β)} (h : (tid.map cohort).Pairwise (· ≤ ·)) :
    ((cohortCounts tid).flatMap fun p => List.replicate p.2 p.1) = tid.map cohort := by
  unfold cohortCounts
  rw [List.flatMap_map]
  exact sorted_eq_replicate h

theorem getElem?_setSlice {γ : Type*} (l : List γ) (a b : ℕ) (v : γ) (k : ℕ) :
    (setSlice l a b v)[k]? = l[k]?.map fun x => if a ≤ k ∧ k < b then v else x := by
  unfold setSlice
  rw [List.getElem?_mapIdx]

/-- The loop painting all blocks selected by a mask paints exactly the positions whose value is selected. -/
theorem paint_get {α γ : Type*} (counts : List (α × ℕ)) (mask : α → Bool) (v : γ)
    (flat : List α) (hflat : (counts.flatMap fun p => List.replicate p.2 p.1) = flat) (idx0 : List γ)
    (k : ℕ) (hk : k < flat.length) :
    (paintBlocks counts mask v idx0 (List.range counts.length))[k]? = idx0[k]?.map fun x => if mask flat[k] then v else x := by
  obtain ⟨j0, hj0, h1, h2⟩ := blocks_exists counts k (by rw [hflat]; exact hk)
  have hval : flat[k] = counts[j0].1 := by
    have := blocks_get counts j0 k hj0 h1 h2
    rw [hflat, List.getElem?_eq_getElem hk] at this
    exact Option.some.inj this
  -- only block `j0` contains `k` and any other block containing `k` has the same value
  have hother : ∀ j (hj : j < counts.length), sizesBefore counts j ≤ k → k < sizesBefore counts (j + 1) →
      counts[j].1 = flat[k] := by
    intro j hj h1 h2
    have := blocks_get counts j k hj h1 h2
    rw [hflat, List.getElem?_eq_getElem hk] at this
    exact (Option.some.inj this).symm
  have key : ∀ m, m ≤ counts.length → (paintBlocks counts mask v idx0 (List.range m))[k]? = idx0[k]?.map fun x =>
        if mask flat[k] ∧ ∃ j, j < m ∧ sizesBefore counts j ≤ k ∧ k < sizesBefore counts (j + 1) then v else x := by
    intro m
    induction m with
    | zero => intro _; simp [paintBlocks]
    | succ m ih =>
      intro hm
      have hm' : m < counts.length := by omega
      have e2 : ¬ (mask counts[m].1 ∧ sizesBefore counts m ≤ k ∧ k < sizesBefore counts (m + 1)) →
          ((mask flat[k] ∧ ∃ j, j < m + 1 ∧ sizesBefore counts j ≤ k ∧ k < sizesBefore counts (j + 1)) ↔
          (mask flat[k] ∧ ∃ j, j < m ∧ sizesBefore counts j ≤ k ∧ k < sizesBefore counts (j + 1))) := by
        intro hno
        constructor
        · rintro ⟨hmk, j, hj, hh⟩
          refine ⟨hmk, j, lt_of_le_of_ne (by omega) ?_, hh⟩
          rintro rfl
          rw [← hother j hm' hh.1 hh.2] at hmk
          exact hno ⟨hmk, hh⟩
        · rintro ⟨hmk, j, hj, hh⟩; exact ⟨hmk, j, by omega, hh⟩
      have hstep : paintBlocks counts mask v idx0 (List.range (m + 1)) =
          if mask counts[m].1 then setSlice (paintBlocks counts mask v idx0 (List.range m))
            (sizesBefore counts m) (sizesBefore counts (m + 1)) v
          else paintBlocks counts mask v idx0 (List.range m) := by
        rw [paintBlocks, List.range_succ, List.foldl_append, List.foldl_cons, List.foldl_nil,
          List.getElem?_eq_getElem hm']
        rfl
      rw [hstep]
      by_cases hmask : mask counts[m].1
      · rw [if_pos hmask]
        rw [getElem?_setSlice, ih (by omega), Option.map_map]
        congr 1
        funext x
        simp only [Function.comp]
        by_cases hin : sizesBefore counts m ≤ k ∧ k < sizesBefore counts (m + 1)
        · have : mask flat[k] := by rw [← hother m hm' hin.1 hin.2]; exact hmask
          rw [if_pos hin, if_pos ⟨this, m, by omega, hin⟩]
        · rw [if_neg hin]
          have := e2 (by tauto)
          simp only [this]
      · rw [if_neg hmask]
        rw [ih (by omega)]
        congr 1
        funext x
        have := e2 (by tauto)
        simp only [this]
  rw [key counts.length le_rfl]
  congr 1
  funext x
  by_cases hfm : mask flat[k]
  · rw [if_pos ⟨hfm, j0, hj0, h1, h2⟩, if_pos hfm]
  · simp [hfm]

/-- First occurrence of a cohort in a duplicate-free table. -/
theorem treated_get {γ : Type*} (counts : List (WithTop ℤ × ℕ)) (hn : (counts.map Prod.fst).Nodup) (g : WithTop ℤ)
    (v : γ) (flat : List (WithTop ℤ)) (hflat : (counts.flatMap fun p => List.replicate p.2 p.1) = flat)
    (idx : List γ) (k : ℕ) (hk : k < flat.length) :
    (match counts.findIdx? fun p => p.1 = g with
      | none => idx
      | some j => setSlice idx (sizesBefore counts j) (sizesBefore counts (j + 1)) v)[k]? =
      idx[k]?.map fun x => if flat[k] = g then v else x := by
  obtain ⟨j0, hj0, h1, h2⟩ := blocks_exists counts k (by rw [hflat]; exact hk)
  have hval : flat[k] = counts[j0].1 := by
    have := blocks_get counts j0 k hj0 h1 h2
    rw [hflat, List.getElem?_eq_getElem hk] at this
    exact Option.some.inj this
  cases hf : counts.findIdx? fun p => p.1 = g with
  | none =>
    rw [List.findIdx?_eq_none_iff] at hf
    have := hf counts[j0] (List.getElem_mem hj0)
    rw [decide_eq_false_iff_not, ← hval] at this
    simp [this]
  | some j =>
    rw [List.findIdx?_eq_some_iff_getElem] at hf
    obtain ⟨hj, hjg, _⟩ := hf
    rw [decide_eq_true_eq] at hjg
    simp only
    rw [getElem?_setSlice]
    congr 1
    funext x
    by_cases hin : sizesBefore counts j ≤ k ∧ k < sizesBefore counts (j + 1)
    · have := blocks_get counts j k hj hin.1 hin.2
      rw [hflat, List.getElem?_eq_getElem hk] at this
      rw [if_pos hin, if_pos ((Option.some.inj this).trans hjg)]
    · rw [if_neg hin, if_neg]
      intro hfg
      have hjj : j = j0 := by
        have hA : (counts.map Prod.fst)[j]'(by simpa using hj) = (counts.map Prod.fst)[j0]'(by simpa using hj0) := by
          simp only [List.getElem_map]; rw [hjg, ← hval, hfg]
        exact (List.Nodup.getElem_inj_iff hn).1 hA
      subst hjj
      exact hin ⟨h1, h2⟩

/-- **C19, panel data.** On a time-invariant table ordered by cohort, the block-slice implementation gives each unit
exactly its documented role: 1 iff its cohort is `g`, 0 iff it is another cohort in the documented comparison group,
unused otherwise. -/
theorem C19_panel_roles (cg : ControlGroup) (relevant g : ℤ) (tid : List (Obs ι β))
    (hs : (tid.map cohort).Pairwise (· ≤ ·)) :
    panelCohortIndex cg relevant g (cohortCounts tid) tid.length =
      tid.map fun r => role cg relevant g (cohort r) := by
  have hflat := cohortCounts_flat hs
  have hfst : (cohortCounts tid).map Prod.fst = uniqStable (tid.map cohort) := by
    simp [cohortCounts, Function.comp_def]
  have hnd : ((cohortCounts tid).map Prod.fst).Nodup := by rw [hfst]; exact uniqStable_nodup _
  have hsu : (uniqStable (tid.map cohort)).Pairwise (· ≤ ·) := hs.sublist (uniqStable_sublist _)
  apply List.ext_getElem?
  intro k
  unfold panelCohortIndex
  by_cases hk : k < tid.length
  swap
  · have e2 : (tid.map fun r => role cg relevant g (cohort r))[k]? = none := by simp; omega
    rw [e2]
    have hlen0 : ∀ (counts : List (WithTop ℤ × ℕ)) (mask : WithTop ℤ → Bool) (l : List ℕ)
        (idx0 : List (Option Bool)), (paintBlocks counts mask (some false) idx0 l).length = idx0.length := by
      intro counts mask l
      unfold paintBlocks
      induction l with
      | nil => intro idx0; rfl
      | cons a l ih =>
        intro idx0
        rw [List.foldl_cons, ih]
        split
        · split_ifs <;> simp [setSlice]
        · rfl
    simp only
    split
    · rw [List.getElem?_eq_none_iff, hlen0]; simp; omega
    · rw [List.getElem?_eq_none_iff, setSlice, List.length_mapIdx, hlen0]; simp; omega
  have hkf : k < (tid.map cohort).length := by simpa using hk
  rw [treated_get _ hnd _ _ _ hflat _ k hkf]
  rw [paint_get _ _ _ _ hflat _ k hkf]
  simp only [List.getElem?_replicate, hk, if_true, Option.map_some, List.getElem?_map,
    List.getElem?_eq_getElem hk, List.getElem_map, hfst]
  congr 1
  unfold role
  by_cases hg : cohort tid[k] = (g : WithTop ℤ)
  · rw [if_pos hg, if_pos hg]
  rw [if_neg hg, if_neg hg]
  have hmem : cohort tid[k] ∈ uniqStable (tid.map cohort) :=
    mem_uniqStable.2 (List.mem_map.2 ⟨_, List.getElem_mem hk, rfl⟩)
  -- upper bound is automatically met
  have hmax : cohort tid[k] ≤ maxControl (uniqStable (tid.map cohort)) := by
    unfold maxControl
    split_ifs with h
    · exact le_top
    · generalize uniqStable (tid.map cohort) = u at *
      obtain ⟨l, a, rfl⟩ : ∃ l a, u = l ++ [a] :=
        ⟨u.dropLast, u.getLast (List.ne_nil_of_mem hmem), (List.dropLast_append_getLast _).symm⟩
      rw [List.getLast?_append]
      simp only [List.getLast?_singleton, Option.some_or, Option.getD_some]
      rcases List.mem_append.1 hmem with hm | hm
      · exact (List.pairwise_append.1 hsu).2.2 _ hm a (by simp)
      · rw [List.mem_singleton] at hm; exact hm.le
  have hmin : minControl cg relevant (uniqStable (tid.map cohort)) ≤ cohort tid[k] ↔ IsComparison cg relevant (cohort tid[k]) := by
    cases cg with
    | neverTreated => simp [IsComparison, minControl]
    | notYetTreated =>
      simp only [IsComparison, minControl]
      generalize uniqStable (tid.map cohort) = u at *
      cases hfind : u.find? fun c => (relevant : WithTop ℤ) < c with
      | none =>
        rw [List.find?_eq_none] at hfind
        have := hfind _ hmem
        rw [decide_eq_true_eq] at this
        simp only [Option.getD_none, top_le_iff]
        constructor
        · intro h; rw [h] at this; exact absurd (WithTop.coe_lt_top _) this
        · intro h; exact absurd h this
      | some m =>
        rw [List.find?_eq_some_iff_append] at hfind
        obtain ⟨hm, as, bs, rfl, has⟩ := hfind
        rw [decide_eq_true_eq] at hm
        simp only [Option.getD_some]
        constructor
        · intro h; exact lt_of_lt_of_le hm h
        · intro h
          rcases List.mem_append.1 hmem with h1 | h1
          · have := has _ h1
            simp only [Bool.not_eq_true', decide_eq_false_iff_not] at this
            exact absurd h this
          · rcases List.mem_cons.1 h1 with h2 | h2
            · exact h2.ge
            · exact (List.pairwise_cons.1 (List.pairwise_append.1 hsu).2.1).1 _ h2
  by_cases hc : IsComparison cg relevant (cohort tid[k])
  · rw [if_pos hc, if_pos]
    exact decide_eq_true ⟨hmin.2 hc, hmax⟩
  · rw [if_neg hc, if_neg]
    rw [decide_eq_true_eq]
    rintro ⟨h, _⟩
    exact hc (hmin.1 h)

/-- **C19, repeated cross-sections.** The flag implementation gives every row of the two periods of the cell its
documented role, and every other row none. -/
theorem C19_rc_roles (cg : ControlGroup) (relevant g tCell tBase : ℤ) (df : List (Obs ι β)) :
    rcCohortIndex cg relevant g tCell tBase df =
      df.map fun r => if r.t = tCell ∨ r.t = tBase then role cg relevant g (cohort r) else none := by
  unfold rcCohortIndex
  apply List.map_congr_left
  intro r _
  unfold role IsComparison
  cases cg
  · by_cases hk : r.t = tCell ∨ r.t = tBase <;> by_cases hg : cohort r = (g : WithTop ℤ) <;> simp [hk, hg]
  · have htop : cohort r = ⊤ → (relevant : WithTop ℤ) < cohort r := fun h => h ▸ WithTop.coe_lt_top _
    by_cases hk : r.t = tCell ∨ r.t = tBase <;> by_cases hg : cohort r = (g : WithTop ℤ) <;> simp [hk, hg]
    by_cases h1 : cohort r = ⊤
    · simp [h1]
    · simp [h1]

/-- No unit is both treated and comparison, treated units are exactly cohort `g`, and comparison units are exactly
the other cohorts in the comparison group. -/
theorem C19_role_spec (cg : ControlGroup) (relevant g : ℤ) (c : WithTop ℤ) :
    (role cg relevant g c = some true ↔ c = (g : WithTop ℤ)) ∧
    (role cg relevant g c = some false ↔ c ≠ (g : WithTop ℤ) ∧
      (cg = .neverTreated ∧ c = ⊤ ∨ cg = .notYetTreated ∧ (relevant : WithTop ℤ) < c)) := by
  unfold role IsComparison
  constructor
  · split_ifs <;> simp_all
  · cases cg <;> by_cases hg : c = (g : WithTop ℤ) <;> simp [hg]
    · by_cases h : c = ⊤ <;> simp [h]
    · by_cases h : (relevant : WithTop ℤ) < c <;> simp [h]

/-- The time-invariant table of a sorted balanced panel is ordered by cohort. -/
theorem timeInvariant_sorted [LinearOrder ι] {df : List (Obs ι β)} (hs : df.Pairwise leTGI) (hn : NoDuplicates df)
    (hb : Balanced df) (hc : CohortConstant df) : ((timeInvariant df).map cohort).Pairwise (· ≤ ·) := by
  by_cases hne : df = []
  · subst hne; simp [timeInvariant, uniqStable]
  · obtain ⟨r, l, rfl⟩ := List.exists_cons_of_ne_nil hne
    have ht : IsPeriod (r :: l) r.t := ⟨r, by simp, rfl⟩
    have h := congrArg (List.map Prod.fst) (timeInvariant_keys hs hn hb hc ht)
    simp only [List.map_map, Function.comp_def] at h
    have h2 := (block_keys_pairwise hs r.t)
    rw [List.pairwise_map] at h2 ⊢
    have h3 : (((block (r :: l) r.t).map cohort)).Pairwise (· ≤ ·) := by
      rw [List.pairwise_map]
      refine h2.imp ?_
      rintro a b (h | h)
      · exact le_of_lt h
      · exact h.1.le
    rw [show (block (r :: l) r.t).map cohort = (timeInvariant (r :: l)).map cohort from h.symm,
      List.pairwise_map] at h3
    exact h3

theorem timeInvariant_length [LinearOrder ι] (df : List (Obs ι β)) :
    (timeInvariant df).length = idCount df := by
  have h := congrArg List.length (timeInvariant_ids df)
  rw [List.length_map] at h
  rw [h]
  unfold uniqStable idCount nUnique
  rw [List.length_reverse]
  have : (df.map Row.id).reverse.dedup.Perm (df.map Row.id).dedup :=
    (List.reverse_perm _).dedup
  exact this.length_eq

/-- **C19, end to end.** After preprocessing a balanced duplicate-free panel with time-invariant cohorts, the unit in
row `k` of the time-invariant table (hence, by C18, entry `k` of every outcome vector) has its documented role, where
the comparison date is the later of the cell's period and the base period, plus `anticipation`. -/
theorem C19_pipeline_roles [LinearOrder ι] (cg : ControlGroup) (a : ℤ) (df out : List (Obs ι β))
    (hnd : NoDuplicates df) (hbal : Balanced df) (hcc : CohortConstant df)
    (hout : pipeline cg a df = some out) (g : ℤ) (timeIdx preIdx timeFactor : ℕ) (relevant : ℤ)
    (hrel : relevantPeriod (periodsOf out) timeIdx preIdx timeFactor a = some relevant) :
    (∃ t, IsPeriod out t ∧ (periodsOf out)[max timeIdx preIdx + timeFactor]? = some t ∧ relevant = t + a) ∧
    panelCohortIndex cg relevant g (cohortCounts (timeInvariant out)) (idCount out) =
      (timeInvariant out).map fun r => role cg relevant g (cohort r) := by
  constructor
  · unfold relevantPeriod at hrel
    obtain ⟨t, ht, rfl⟩ := Option.map_eq_some_iff.1 hrel
    exact ⟨t, mem_periodsOf.1 (List.mem_of_getElem? ht), ht, rfl⟩
  · obtain ⟨_, _, _, _, hb, hn, hc, _⟩ := pipeline_balanced cg a df out hnd hbal hcc hout
    have hs : out.Pairwise leTGI := by
      unfold pipeline at hout
      obtain ⟨o, _, rfl⟩ := Option.map_eq_some_iff.1 hout
      exact sortTGI_pairwise o
    rw [← timeInvariant_length]
    exact C19_panel_roles cg relevant g _ (timeInvariant_sorted hs hn hb hc)

example : (pipeline .notYetTreated 0 (exNoNever ++ [⟨9, 1, (0, 0)⟩, ⟨9, 2, (0, 0)⟩, ⟨9, 3, (0, 0)⟩, ⟨9, 4, (0, 0)⟩])).map
    (fun out => ((timeInvariant out).map cohort, relevantPeriod (periodsOf out) 0 0 1 0,
      panelCohortIndex .notYetTreated 2 2 (cohortCounts (timeInvariant out)) (idCount out),
      panelCohortIndex .neverTreated 2 3 (cohortCounts (timeInvariant out)) (idCount out))) =
    some ([2, 3, 4, ⊤], some 2, [some true, some false, some false, some false],
      [none, some true, none, some false]) := by decide

end Verif.Prep
