import Verif.Dist.DriverModel
import Verif.AttGt.Props
import Verif.Triple.Multi
import Mathlib.Algebra.Order.Field.Rat
import Mathlib.Data.List.GetD
import Mathlib.Tactic.Ring
import Mathlib.Tactic.FieldSimp
import Mathlib.Tactic.Linarith

set_option linter.unusedSectionVars false
set_option linter.unusedSimpArgs false

/-!
# Distributed `att_gt` versus one machine: C123–C130
-/

namespace Verif.Dist.Driver

open Verif.AttGt Verif.Prep

/-! ## C123: the same cells with the same base periods -/

lemma preBefore_eq (l : List ℤ) (b : ℤ) : preBefore l b = (lastBefore l b).bind (fun p => l[p]?) := by
  unfold preBefore lastBefore
  have h1 : l.filter (fun s => decide (s < b)) =
      (l.zipIdx.filter (fun p => decide (p.1 < b))).map Prod.fst := by
    have : l = l.zipIdx.map Prod.fst := by simp
    conv_lhs => rw [this, List.filter_map]
    rfl
  rw [h1, List.getLast?_map]
  cases hl : (l.zipIdx.filter fun p => decide (p.1 < b)).getLast? with
  | none => rfl
  | some p =>
    have hm : p ∈ l.zipIdx := (List.mem_filter.1 (List.mem_of_getLast? hl)).1
    have := List.mem_zipIdx_iff_getElem?.1 (by simpa using hm : (p.1, p.2) ∈ l.zipIdx)
    simpa using this.symm

/-- **C123**: cells are enumerated in the same order, and a cell is computed against the base period the single-machine
estimator uses, is a reported zero (universal base) exactly when the cell is its own base, and is skipped exactly when the
single-machine run finds no base period. -/
theorem C123_cells (bp : BasePeriod) (tlist : List ℤ) (hs : tlist.Pairwise (· < ·)) (a : ℤ) (gs : List ℤ) :
    (cellSpecs bp tlist a gs).map (fun s => (s.g, s.t)) =
      (cells bp gs.length tlist.length).map (fun c => (gs.getD c.1 0, tlist.getD (c.2 + timeFactor bp) 0)) ∧
    ∀ g i, i + timeFactor bp < tlist.length →
      let s := specOf bp tlist a g (tlist.getD i 0) (tlist.getD (i + timeFactor bp) 0)
      (∀ p, planCell bp tlist a g i = some (.run p) →
        s.action = .compute ∧ s.pret = tlist[p]? ∧ s.pret.isSome ∧ s.post = decide (g ≤ tlist.getD (i + timeFactor bp) 0)) ∧
      (planCell bp tlist a g i = some .skip → s.action = (match bp with | .universal => .zero | .varying => .skip)) ∧
      (planCell bp tlist a g i = some .typeError → s.action = .skip) ∧ planCell bp tlist a g i ≠ none := by
  constructor
  · unfold cellSpecs cells
    rw [List.map_flatMap, List.map_flatMap]
    have : gs.flatMap (fun g => (List.range (tlist.length - timeFactor bp)).map fun i =>
        (g, tlist.getD (i + timeFactor bp) 0)) =
        (List.range gs.length).flatMap (fun j => (List.range (tlist.length - timeFactor bp)).map fun i =>
        (gs.getD j 0, tlist.getD (i + timeFactor bp) 0)) := by
      have hg : gs = (List.range gs.length).map (fun j => gs.getD j 0) := by
        apply List.ext_getElem (by simp)
        intro k h1 h2
        rw [List.getElem_map, List.getElem_range, List.getD_eq_getElem _ _ h1]
      conv_lhs => rw [hg, List.flatMap_map]
    have e1 : ∀ g, ((List.range (tlist.length - timeFactor bp)).map fun i =>
        specOf bp tlist a g (tlist.getD i 0) (tlist.getD (i + timeFactor bp) 0)).map (fun s => (s.g, s.t)) =
        (List.range (tlist.length - timeFactor bp)).map fun i => (g, tlist.getD (i + timeFactor bp) 0) := by
      intro g
      rw [List.map_map]
      apply List.map_congr_left
      intro i _
      simp only [Function.comp]
      unfold specOf
      cases bp
      · simp only
        split_ifs
        · cases preBefore tlist (g - a) <;> rfl
        · rfl
      · simp only
        cases preBefore tlist (g - a) with
        | none => rfl
        | some p => simp only; split_ifs <;> rfl
    simp only [e1]
    rw [this]
    cases bp <;> simp [timeFactor, Function.comp_def]
  · intro g i hi s
    have hget : tlist[i + timeFactor bp]? = some (tlist.getD (i + timeFactor bp) 0) := by
      rw [List.getD_eq_getElem _ _ hi, List.getElem?_eq_getElem hi]
    have hnow : tlist[i]? = some (tlist.getD i 0) := by
      have : i < tlist.length := by omega
      rw [List.getD_eq_getElem _ _ this, List.getElem?_eq_getElem this]
    unfold planCell
    rw [hget]
    simp only [s]
    unfold specOf
    cases bp with
    | universal =>
      simp only
      rw [preBefore_eq]
      cases hl : lastBefore tlist (g - a) with
      | none => simp
      | some p =>
        obtain ⟨b, hb, _⟩ := lastBefore_some hs hl
        simp only [Option.bind_some, hb]
        by_cases hbt : b = tlist.getD (i + timeFactor .universal) 0
        · rw [if_pos hbt, if_pos (congrArg some hbt)]
          simp
        · have hbt' : ¬ (some b = some (tlist.getD (i + timeFactor .universal) 0)) := fun h => hbt (Option.some.inj h)
          rw [if_neg hbt, if_neg hbt']
          refine ⟨fun q hq => ?_, fun h => by simp at h, fun h => by simp at h, by simp⟩
          have : p = q := by simpa using hq
          subst this
          exact ⟨rfl, hb.symm, rfl, rfl⟩
    | varying =>
      simp only
      by_cases hg : g ≤ tlist.getD (i + timeFactor .varying) 0
      · rw [if_pos hg, if_pos hg, preBefore_eq]
        cases hl : lastBefore tlist (g - a) with
        | none => simp
        | some p =>
          obtain ⟨b, hb, _⟩ := lastBefore_some hs hl
          simp only [Option.bind_some, hb]
          refine ⟨fun q hq => ?_, fun h => by simp at h, fun h => by simp at h, by simp⟩
          have : p = q := by simpa using hq
          subst this
          exact ⟨trivial, hb.symm, rfl, (decide_eq_true hg).symm⟩
      · rw [if_neg hg, if_neg hg]
        refine ⟨fun q hq => ?_, fun h => by simp at h, fun h => by simp at h, by simp⟩
        have : i = q := by simpa using hq
        subst this
        exact ⟨rfl, hnow.symm, rfl, (decide_eq_false hg).symm⟩

example : ([1, 2, 3, 4] : List ℤ).Pairwise (· < ·) ∧
    cellSpecs .varying [1, 2, 3, 4] 0 [3] =
      [⟨3, 2, some 1, false, .compute⟩, ⟨3, 3, some 2, true, .compute⟩, ⟨3, 4, some 2, true, .compute⟩] := by
  decide +kernel

/-! ## C124: the same treated and comparison units -/

/-- **C124**: without anticipation, and with never-treated units coded 0, a unit has the role it has on one machine after the
cohort column has been encoded there. -/
theorem C124_roles (cg : ControlGroup) (last g t pret : ℤ) (G : WithTop ℤ) (hg : 0 < g) (hgl : g ≤ last)
    (ht : max t pret ≤ last)
    (hG : G = 0 ∨ (∃ c : ℤ, G = (c : WithTop ℤ) ∧ 0 < c ∧ c ≤ last) ∨ (cg = .notYetTreated ∧ (last : WithTop ℤ) < G)) :
    distRole cg g t pret G = role cg (max t pret) g (encodeCohort last G) := by
  have hg0 : ¬ ((0 : WithTop ℤ) = (g : WithTop ℤ)) := by
    intro h
    have : (0 : ℤ) = g := by exact_mod_cast h
    omega
  rcases hG with rfl | ⟨c, rfl, hc, hcl⟩ | ⟨rfl, hG⟩
  · have e : encodeCohort last 0 = ⊤ := by unfold encodeCohort; simp
    rw [e]
    unfold distRole role IsComparison
    cases cg
    · simp [hg0]
    · simp [hg0, WithTop.coe_lt_top]
  · have e : encodeCohort last (c : WithTop ℤ) = c := by
      unfold encodeCohort
      have : ¬ ((c : WithTop ℤ) = 0) := by
        intro h
        have : c = 0 := by exact_mod_cast h
        omega
      simp only [this, if_false]
      rw [if_neg]
      rw [not_lt]
      exact_mod_cast hcl
    have hc0 : ¬ ((c : WithTop ℤ) = 0) := by
      intro h
      have : c = 0 := by exact_mod_cast h
      omega
    rw [e]
    unfold distRole role IsComparison
    cases cg
    · by_cases h : c = g
      · simp [h]
      · have h' : ¬ ((c : WithTop ℤ) = (g : WithTop ℤ)) := by exact_mod_cast h
        simp [h, hc0]
    · by_cases h : c = g
      · simp [h]
      · have h' : ¬ ((c : WithTop ℤ) = (g : WithTop ℤ)) := by exact_mod_cast h
        simp only [hc0, h', false_or, or_false, decide_false, if_false]
        by_cases h2 : ((max t pret : ℤ) : WithTop ℤ) < (c : WithTop ℤ) <;> simp [h2]
  · have e : encodeCohort last G = ⊤ := by
      unfold encodeCohort
      by_cases h0 : G = 0
      · simp [h0]
      · simp [h0, hG]
    rw [e]
    have hne : ¬ (G = (g : WithTop ℤ)) := by
      rintro rfl
      exact absurd hG (not_lt.2 (by exact_mod_cast hgl))
    have hm : ((max t pret : ℤ) : WithTop ℤ) < G := lt_of_le_of_lt (by exact_mod_cast ht) hG
    unfold distRole role IsComparison
    simp only [hm, hne, true_or, or_true, decide_true, if_true, decide_false]
    simp [WithTop.coe_lt_top]

example : distRole .notYetTreated 3 4 2 (5 : ℤ) = some false ∧ distRole .notYetTreated 3 4 2 (4 : ℤ) = none ∧
    distRole .neverTreated 3 4 2 0 = some false ∧ distRole .neverTreated 3 4 2 (3 : ℤ) = some true := by decide +kernel

/-- **C124 (violated)**: with anticipation, units that are treated within the anticipation window after the cell's period are
used as comparisons, which the single-machine run excludes. -/
theorem C124_anticipation_violated (last g t pret a c : ℤ) (hc : max t pret < c) (hca : c ≤ max t pret + a) (hcl : c ≤ last)
    (hc0 : c ≠ 0) (hcg : c ≠ g) :
    distRole .notYetTreated g t pret c = some false ∧
      role .notYetTreated (max t pret + a) g (encodeCohort last c) = none := by
  have hc0' : ¬ ((c : WithTop ℤ) = 0) := by exact_mod_cast hc0
  have hcg' : ¬ ((c : WithTop ℤ) = (g : WithTop ℤ)) := by exact_mod_cast hcg
  have e : encodeCohort last (c : WithTop ℤ) = c := by
    unfold encodeCohort
    simp only [hc0', if_false]
    rw [if_neg]
    rw [not_lt]
    exact_mod_cast hcl
  have hlt : ((max t pret : ℤ) : WithTop ℤ) < (c : WithTop ℤ) := by exact_mod_cast hc
  have hnl : ¬ (((max t pret + a : ℤ) : WithTop ℤ) < (c : WithTop ℤ)) := by
    rw [not_lt]; exact_mod_cast hca
  rw [e]
  unfold distRole role IsComparison
  simp only [hc0', hcg', hlt, hnl, true_or, or_true, decide_true, decide_false, if_true, if_false, and_self]

example : ∃ last g t pret a c : ℤ, max t pret < c ∧ c ≤ max t pret + a ∧ c ≤ last ∧ c ≠ 0 ∧ c ≠ g :=
  ⟨6, 3, 4, 1, 1, 5, by decide⟩

/-- **C124 (violated)**: never-treated units coded `inf`, and cohorts first treated after the last period, are comparisons on
one machine but are dropped here with `control_group="nevertreated"`. -/
theorem C124_coding_violated (last g t pret : ℤ) (hgl : g ≤ last) (G : WithTop ℤ) (hG : (last : WithTop ℤ) < G) (h0 : G ≠ 0) :
    distRole .neverTreated g t pret G = none ∧
      role .neverTreated (max t pret) g (encodeCohort last G) = some false := by
  have hne : ¬ (G = (g : WithTop ℤ)) := by
    rintro rfl
    exact absurd hG (not_lt.2 (by exact_mod_cast hgl))
  have e : encodeCohort last G = ⊤ := by unfold encodeCohort; simp [h0, hG]
  rw [e]
  unfold distRole role IsComparison
  simp [hne, h0]

example : ((4 : ℤ) : WithTop ℤ) < ⊤ ∧ ((4 : ℤ) : WithTop ℤ) < ((5 : ℤ) : WithTop ℤ) := by decide

/-- **C123 (cohorts)**: the cohorts that get cells are exactly the finite positive ones, in increasing order. -/
theorem C123_cohorts (raw : List (WithTop ℤ)) :
    (∀ g : ℤ, g ∈ glist raw ↔ ((g : WithTop ℤ) ∈ raw ∧ 0 < g)) ∧ (glist raw).Pairwise (· ≤ ·) := by
  constructor
  · intro g
    unfold glist
    rw [(List.perm_insertionSort _ _).mem_iff, List.mem_filter, List.mem_filterMap]
    simp only [decide_eq_true_eq]
    constructor
    · rintro ⟨⟨a, ha, h⟩, hg⟩
      induction a using WithTop.recTopCoe with
      | top => simp [finitePart] at h
      | coe b =>
        have : b = g := by simpa [finitePart] using h
        subst this
        exact ⟨ha, hg⟩
    · rintro ⟨h, hg⟩
      exact ⟨⟨_, h, by simp [finitePart]⟩, hg⟩
  · exact List.pairwise_insertionSort _ _

example : glist [((4 : ℤ) : WithTop ℤ), ⊤, ((0 : ℤ) : WithTop ℤ), ((3 : ℤ) : WithTop ℤ)] = [3, 4] := by decide +kernel

end Verif.Dist.Driver
