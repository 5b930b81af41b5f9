import Verif.Sim.Model
import Mathlib.MeasureTheory.Measure.Lebesgue.Basic

/-!
# C239: group assignment in the generators

For a uniform draw the groups come up with the multinomial-logit probabilities of the unit's covariates.
-/

set_option linter.unusedSectionVars false
set_option linter.unusedSimpArgs false

namespace Verif.Sim

open MeasureTheory

/-! ## Lemmas -/

theorem countP_range_lt (n k : ℕ) : (List.range n).countP (fun j => decide (j < k)) = min n k := by
  induction n with
  | zero => simp
  | succ n ih =>
    rw [List.range_succ, List.countP_append, ih, List.countP_cons, List.countP_nil]
    by_cases h : n < k
    · simp [h]; omega
    · simp [h]; omega

theorem take_mono (p : List ℝ) (hp : ∀ a ∈ p, 0 ≤ a) {i j : ℕ} (h : i ≤ j) : (p.take i).sum ≤ (p.take j).sum := by
  have e : p.take j = p.take i ++ (p.drop i).take (j - i) := by
    rw [← List.take_add, Nat.add_sub_cancel' h]
  rw [e, List.sum_append]
  have : 0 ≤ ((p.drop i).take (j - i)).sum := List.sum_nonneg fun a ha => hp a (List.mem_of_mem_drop (List.mem_of_mem_take ha))
  linarith

theorem take_succ_sum (p : List ℝ) (k : ℕ) (hk : k < p.length) : (p.take (k + 1)).sum = (p.take k).sum + p[k] := by
  rw [List.take_succ_eq_append_getElem hk, List.sum_append]
  simp

theorem groupType_of (p : List ℝ) (hp : ∀ a ∈ p, 0 ≤ a) (u : ℝ) (k : ℕ) (hk : k < p.length) (h1 : (p.take k).sum ≤ u)
    (h2 : u < (p.take (k + 1)).sum) : groupType p u = k := by
  unfold groupType cumsum
  rw [← List.countP_eq_length_filter, List.countP_map]
  have e : ((fun c : ℝ => decide (c ≤ u)) ∘ fun j => (p.take (j + 1)).sum) = fun j => decide (j < k) := by
    funext j
    simp only [Function.comp]
    rw [decide_eq_decide]
    constructor
    · intro h
      by_contra hn
      have := take_mono p hp (i := k + 1) (j := j + 1) (by omega)
      linarith
    · intro h
      exact (take_mono p hp (by omega : j + 1 ≤ k)).trans h1
  rw [e, countP_range_lt]
  omega

theorem exists_cell (p : List ℝ) (u : ℝ) (h0 : 0 ≤ u) (h1 : u < p.sum) :
    ∃ k, k < p.length ∧ (p.take k).sum ≤ u ∧ u < (p.take (k + 1)).sum := by
  classical
  have hex : ∃ m, u < (p.take m).sum := ⟨p.length, by rwa [List.take_length]⟩
  obtain ⟨m, hm⟩ : ∃ m, Nat.find hex = m := ⟨_, rfl⟩
  have hspec := Nat.find_spec hex
  have hmin : ∀ j < m, ¬ u < (p.take j).sum := fun j hj => Nat.find_min hex (by omega)
  rw [hm] at hspec
  have hle : m ≤ p.length := by
    rw [← hm]
    exact Nat.find_min' hex (by rwa [List.take_length])
  cases m with
  | zero => simp at hspec; linarith
  | succ k => exact ⟨k, by omega, not_lt.1 (hmin k (by omega)), hspec⟩

/-- A draw below one gives a category. -/
theorem draw_lt (p : List ℝ) (hp : ∀ a ∈ p, 0 ≤ a) (hs : p.sum = 1) (u : ℝ) (h0 : 0 ≤ u) (h1 : u < 1) : groupType p u < p.length := by
  obtain ⟨k, hk, a, b⟩ := exists_cell p u h0 (by rw [hs]; exact h1)
  rw [groupType_of p hp u k hk a b]
  exact hk

theorem draw_set (p : List ℝ) (hp : ∀ a ∈ p, 0 ≤ a) (hs : p.sum = 1) (k : ℕ) (hk : k < p.length) :
    {u : ℝ | u ∈ Set.Ico (0 : ℝ) 1 ∧ groupType p u = k} = Set.Ico (p.take k).sum (p.take (k + 1)).sum := by
  ext u
  constructor
  · rintro ⟨⟨h0, h1⟩, hg⟩
    obtain ⟨j, hj, a, b⟩ := exists_cell p u h0 (by rw [hs]; exact h1)
    rw [groupType_of p hp u j hj a b] at hg
    subst hg
    exact ⟨a, b⟩
  · rintro ⟨a, b⟩
    refine ⟨⟨?_, ?_⟩, groupType_of p hp u k hk a b⟩
    · have := take_mono p hp (Nat.zero_le k)
      rw [List.take_zero, List.sum_nil] at this
      linarith
    · have := take_mono p hp (i := k + 1) (j := p.length) (by omega)
      rw [List.take_length, hs] at this
      linarith

/-- Each category has its probability. -/
theorem draw_prob (p : List ℝ) (hp : ∀ a ∈ p, 0 ≤ a) (hs : p.sum = 1) (k : ℕ) (hk : k < p.length) :
    volume.real {u : ℝ | u ∈ Set.Ico (0 : ℝ) 1 ∧ groupType p u = k} = p[k] := by
  rw [draw_set p hp hs k hk, Measure.real, Real.volume_Ico, take_succ_sum p k hk, add_sub_cancel_left, ENNReal.toReal_ofReal]
  exact hp _ (List.getElem_mem hk)

theorem softProbs_length (e : List ℝ) : (softProbs e).length = e.length + 1 := by simp [softProbs]

theorem softProbs_get (e : List ℝ) (k : ℕ) (hk : k < (e ++ [1]).length) (hk' : k < (softProbs e).length) :
    (softProbs e)[k] = (e ++ [1])[k] / (1 + e.sum) := by
  have : softProbs e = (e ++ [1]).map (· / (1 + e.sum)) := by simp [softProbs]
  have h2 : (softProbs e)[k]? = some ((e ++ [1])[k] / (1 + e.sum)) := by
    rw [this, List.getElem?_map, List.getElem?_eq_getElem hk, Option.map_some]
  rw [List.getElem?_eq_getElem hk', Option.some.injEq] at h2
  exact h2

theorem softProbs_nonneg (e : List ℝ) (he : ∀ a ∈ e, 0 < a) : ∀ a ∈ softProbs e, 0 ≤ a := by
  have hS : 0 ≤ e.sum := List.sum_nonneg fun a ha => (he a ha).le
  intro a ha
  simp only [softProbs, List.mem_append, List.mem_map, List.mem_singleton] at ha
  rcases ha with ⟨b, hb, rfl⟩ | rfl
  · exact div_nonneg (he b hb).le (by linarith)
  · exact div_nonneg zero_le_one (by linarith)

theorem map_div_sum (e : List ℝ) (c : ℝ) : (e.map (· / c)).sum = e.sum / c := by
  induction e with
  | nil => simp
  | cons a e ih => rw [List.map_cons, List.sum_cons, List.sum_cons, ih, add_div]

theorem softProbs_sum (e : List ℝ) (he : ∀ a ∈ e, 0 < a) : (softProbs e).sum = 1 := by
  have hS : 0 ≤ e.sum := List.sum_nonneg fun a ha => (he a ha).le
  rw [softProbs, List.sum_append, map_div_sum, List.sum_singleton, ← add_div, add_comm, div_self (by linarith)]

theorem oddsOf_pos (co : List (ℝ × (Fin 4 → ℝ) × ℝ)) (x : Fin 4 → ℝ) : ∀ a ∈ oddsOf co x, 0 < a := by
  intro a ha
  obtain ⟨c, _, rfl⟩ := List.mem_map.1 ha
  exact Real.exp_pos _

theorem treated_values (n : ℕ) : (cohortValues n).filter (· ≠ 0) = (List.range n).map (· + 2) := by
  unfold cohortValues
  rw [List.filter_cons_of_neg (by simp), List.filter_eq_self]
  intro a ha
  obtain ⟨j, _, rfl⟩ := List.mem_map.1 ha
  simp

theorem cohort_get (n i : ℕ) : ((cohortValues n).filter (· ≠ 0) ++ [0])[i]? = if i < n then some (i + 2) else if i = n then some 0 else none := by
  rw [treated_values]
  by_cases h : i < n
  · rw [if_pos h, List.getElem?_append_left (by simpa using h)]
    simp [h]
  · rw [if_neg h, List.getElem?_append_right (by simpa using h)]
    by_cases h2 : i = n
    · subst h2; simp
    · rw [if_neg h2]
      have : 0 < i - n := by omega
      simp
      omega

/-! ## Specification -/

/-- Position of the category (cohort, partition) in the documented order: cohorts 2, 3, ..., then the never treated; eligible first. -/
def catIndex (n g part : ℕ) : ℕ := 2 * (if g = 0 then n else g - 2) + (1 - part)

/-- The odds of category `i` against the reference category, the last one. -/
noncomputable def oddsAt (e : List ℝ) (i : ℕ) : ℝ := (e ++ [1]).getD i 0

theorem cohortPart_iff (n k g part : ℕ) (hk : k < 2 * n + 2) (hg : g = 0 ∨ 2 ≤ g ∧ g ≤ n + 1) (hpart : part ≤ 1) :
    cohortPart n k = some (g, part) ↔ k = catIndex n g part := by
  unfold cohortPart catIndex
  rw [cohort_get]
  constructor
  · intro h
    split_ifs at h with h1 h2
    · simp only [Option.map_some, Option.some.injEq, Prod.mk.injEq] at h
      rw [if_neg (by omega)]
      omega
    · simp only [Option.map_some, Option.some.injEq, Prod.mk.injEq] at h
      rw [if_pos h.1.symm]
      omega
    · cases h
  · intro h
    rcases hg with rfl | hg
    · rw [if_pos rfl] at h
      rw [if_neg (by omega), if_pos (by omega)]
      exact congrArg some (Prod.ext rfl (by show 1 - k % 2 = part; omega))
    · rw [if_neg (by omega)] at h
      rw [if_pos (by omega)]
      simp only [Option.map_some, Option.some.injEq, Prod.mk.injEq]
      omega

/-! ## C239 -/

/-- **C239.**  `gen_dgp_scalable`: every unit gets a cohort and a partition, and given its covariates each pair comes up with its
multinomial-logit probability. -/
theorem C239_scalable (n : ℕ) (co : List (ℝ × (Fin 4 → ℝ) × ℝ)) (hco : co.length = 2 * (n + 1) - 1) (x : Fin 4 → ℝ) :
    (∀ u ∈ Set.Ico (0 : ℝ) 1, ∃ g part, cohortPart n (groupType (softProbs (oddsOf co x)) u) = some (g, part) ∧ g ∈ cohortValues n ∧ part ≤ 1) ∧
    ∀ g part, (g = 0 ∨ 2 ≤ g ∧ g ≤ n + 1) → part ≤ 1 →
      volume.real {u : ℝ | u ∈ Set.Ico (0 : ℝ) 1 ∧ cohortPart n (groupType (softProbs (oddsOf co x)) u) = some (g, part)} =
        oddsAt (oddsOf co x) (catIndex n g part) / (1 + (oddsOf co x).sum) := by
  have hpos := oddsOf_pos co x
  have hlen : (softProbs (oddsOf co x)).length = 2 * n + 2 := by
    rw [softProbs_length]; simp [oddsOf]; omega
  have hlt : ∀ u ∈ Set.Ico (0 : ℝ) 1, groupType (softProbs (oddsOf co x)) u < 2 * n + 2 := by
    intro u hu
    have := draw_lt _ (softProbs_nonneg _ hpos) (softProbs_sum _ hpos) u hu.1 hu.2
    omega
  constructor
  · intro u hu
    have hk := hlt u hu
    unfold cohortPart
    rw [cohort_get]
    split_ifs with h1 h2
    · exact ⟨_, _, rfl, by simp [cohortValues, h1], by omega⟩
    · exact ⟨_, _, rfl, by simp [cohortValues], by omega⟩
    · omega
  · intro g part hg hpart
    have hidx : catIndex n g part < 2 * n + 2 := by
      unfold catIndex
      split_ifs <;> omega
    have hset : {u : ℝ | u ∈ Set.Ico (0 : ℝ) 1 ∧ cohortPart n (groupType (softProbs (oddsOf co x)) u) = some (g, part)} =
        {u : ℝ | u ∈ Set.Ico (0 : ℝ) 1 ∧ groupType (softProbs (oddsOf co x)) u = catIndex n g part} := by
      ext u
      constructor
      · rintro ⟨h, h'⟩
        exact ⟨h, (cohortPart_iff n _ g part (hlt u h) hg hpart).1 h'⟩
      · rintro ⟨h, h'⟩
        exact ⟨h, (cohortPart_iff n _ g part (hlt u h) hg hpart).2 h'⟩
    have hl : catIndex n g part < (oddsOf co x ++ [1]).length := by
      rw [softProbs_length] at hlen
      simp only [List.length_append, List.length_singleton]
      omega
    rw [hset, draw_prob _ (softProbs_nonneg _ hpos) (softProbs_sum _ hpos) _ (by omega), softProbs_get _ _ hl, oddsAt,
      List.getD_eq_getElem?_getD, List.getElem?_eq_getElem hl, Option.getD_some]

/-- **C239.**  `gen_did_scalable`: every unit gets a cohort, with its multinomial-logit probability. -/
theorem C239_did (n : ℕ) (co : List (ℝ × (Fin 4 → ℝ) × ℝ)) (hco : co.length = n) (x : Fin 4 → ℝ) :
    (∀ u ∈ Set.Ico (0 : ℝ) 1, ∃ g ∈ cohortValues n, didCohort n (groupType (softProbs (oddsOf co x)) u) = some g) ∧
    ∀ g, (g = 0 ∨ 2 ≤ g ∧ g ≤ n + 1) →
      volume.real {u : ℝ | u ∈ Set.Ico (0 : ℝ) 1 ∧ didCohort n (groupType (softProbs (oddsOf co x)) u) = some g} =
        oddsAt (oddsOf co x) (if g = 0 then n else g - 2) / (1 + (oddsOf co x).sum) := by
  have hpos := oddsOf_pos co x
  have hlen : (softProbs (oddsOf co x)).length = n + 1 := by
    rw [softProbs_length]; simp [oddsOf]; omega
  have hlt : ∀ u ∈ Set.Ico (0 : ℝ) 1, groupType (softProbs (oddsOf co x)) u < n + 1 := by
    intro u hu
    have := draw_lt _ (softProbs_nonneg _ hpos) (softProbs_sum _ hpos) u hu.1 hu.2
    omega
  constructor
  · intro u hu
    have hk := hlt u hu
    unfold didCohort
    rw [cohort_get]
    split_ifs with h1 h2
    · exact ⟨_, by simp [cohortValues, h1], rfl⟩
    · exact ⟨_, by simp [cohortValues], rfl⟩
    · omega
  · intro g hg
    have hiff : ∀ k < n + 1, (didCohort n k = some g ↔ k = if g = 0 then n else g - 2) := by
      intro k hk
      unfold didCohort
      rw [cohort_get]
      by_cases h1 : k < n
      · rw [if_pos h1, Option.some.injEq]
        split_ifs <;> omega
      · rw [if_neg h1, if_pos (by omega), Option.some.injEq]
        split_ifs <;> omega
    have hset : {u : ℝ | u ∈ Set.Ico (0 : ℝ) 1 ∧ didCohort n (groupType (softProbs (oddsOf co x)) u) = some g} =
        {u : ℝ | u ∈ Set.Ico (0 : ℝ) 1 ∧ groupType (softProbs (oddsOf co x)) u = if g = 0 then n else g - 2} := by
      ext u
      constructor
      · rintro ⟨h, h'⟩
        exact ⟨h, (hiff _ (hlt u h)).1 h'⟩
      · rintro ⟨h, h'⟩
        exact ⟨h, (hiff _ (hlt u h)).2 h'⟩
    have hidx : (if g = 0 then n else g - 2) < n + 1 := by split_ifs <;> omega
    have hl : (if g = 0 then n else g - 2) < (oddsOf co x ++ [1]).length := by
      rw [softProbs_length] at hlen
      simp only [List.length_append, List.length_singleton]
      omega
    rw [hset, draw_prob _ (softProbs_nonneg _ hpos) (softProbs_sum _ hpos) _ (by omega), softProbs_get _ _ hl, oddsAt,
      List.getD_eq_getElem?_getD, List.getElem?_eq_getElem hl, Option.getD_some]

/-- **C239.**  `gen_dgp_mult_periods`: the six cohort and eligibility combinations come up with their probabilities. -/
theorem C239_mult (e : List ℝ) (he : e.length = 5) (hpos : ∀ a ∈ e, 0 < a) (i : ℕ) (hi : i < 6) :
    volume.real {u : ℝ | u ∈ Set.Ico (0 : ℝ) 1 ∧ multGroup (groupType (multProbs e) u) =
      ([(2, 1), (2, 0), (3, 1), (3, 0), (0, 1), (0, 0)] : List (ℕ × ℕ)).getD i (0, 0)} = oddsAt e i / (1 + e.sum) := by
  have hS : 0 ≤ e.sum := List.sum_nonneg fun a ha => (hpos a ha).le
  have heq : multProbs e = softProbs e := by
    unfold multProbs softProbs
    dsimp only
    rw [map_div_sum]
    congr 2
    field_simp
    ring
  rw [heq]
  have hlen : (softProbs e).length = 6 := by rw [softProbs_length, he]
  have hset : {u : ℝ | u ∈ Set.Ico (0 : ℝ) 1 ∧ multGroup (groupType (softProbs e) u) =
      ([(2, 1), (2, 0), (3, 1), (3, 0), (0, 1), (0, 0)] : List (ℕ × ℕ)).getD i (0, 0)} =
      {u : ℝ | u ∈ Set.Ico (0 : ℝ) 1 ∧ groupType (softProbs e) u = i} := by
    ext u
    have hiff : ∀ k < 6, (multGroup k = ([(2, 1), (2, 0), (3, 1), (3, 0), (0, 1), (0, 0)] : List (ℕ × ℕ)).getD i (0, 0) ↔ k = i) := by
      intro k hk
      interval_cases k <;> interval_cases i <;> simp [multGroup]
    constructor
    · rintro ⟨h, h'⟩
      have := draw_lt _ (softProbs_nonneg _ hpos) (softProbs_sum _ hpos) u h.1 h.2
      exact ⟨h, (hiff _ (by omega)).1 h'⟩
    · rintro ⟨h, h'⟩
      exact ⟨h, (hiff _ (by omega)).2 h'⟩
  have hl : i < (e ++ [1]).length := by simp [he]; omega
  rw [hset, draw_prob _ (softProbs_nonneg _ hpos) (softProbs_sum _ hpos) _ (by omega), softProbs_get _ _ hl, oddsAt,
    List.getD_eq_getElem?_getD, List.getElem?_eq_getElem hl, Option.getD_some]

/-- **C239.**  `gen_dgp_2periods`: the four combinations of state and partition come up with their probabilities. -/
theorem C239_two (f1 f2 f3 : ℝ) (h1 : 0 < f1) (h2 : 0 < f2) (h3 : 0 < f3) :
    volume.real {u : ℝ | u ∈ Set.Ico (0 : ℝ) 1 ∧ statePart (subgroup f1 f2 f3 u) = (0, 0)} = f1 / (1 + (f1 + f2 + f3)) ∧
    volume.real {u : ℝ | u ∈ Set.Ico (0 : ℝ) 1 ∧ statePart (subgroup f1 f2 f3 u) = (0, 1)} = f2 / (1 + (f1 + f2 + f3)) ∧
    volume.real {u : ℝ | u ∈ Set.Ico (0 : ℝ) 1 ∧ statePart (subgroup f1 f2 f3 u) = (1, 0)} = f3 / (1 + (f1 + f2 + f3)) ∧
    volume.real {u : ℝ | u ∈ Set.Ico (0 : ℝ) 1 ∧ statePart (subgroup f1 f2 f3 u) = (1, 1)} = 1 / (1 + (f1 + f2 + f3)) := by
  obtain ⟨S, hS⟩ : ∃ S, S = 1 + (f1 + f2 + f3) := ⟨_, rfl⟩
  have hSpos : 0 < S := by rw [hS]; positivity
  obtain ⟨p1, hp1⟩ : ∃ p, p = f1 / S := ⟨_, rfl⟩
  obtain ⟨p2, hp2⟩ : ∃ p, p = f2 / S := ⟨_, rfl⟩
  obtain ⟨p3, hp3⟩ : ∃ p, p = f3 / S := ⟨_, rfl⟩
  obtain ⟨p4, hp4⟩ : ∃ p, p = 1 / S := ⟨_, rfl⟩
  have q1 : 0 < p1 := by rw [hp1]; positivity
  have q2 : 0 < p2 := by rw [hp2]; positivity
  have q3 : 0 < p3 := by rw [hp3]; positivity
  have q4 : 0 < p4 := by rw [hp4]; positivity
  have hsum : p1 + p2 + p3 + p4 = 1 := by
    rw [hp1, hp2, hp3, hp4, ← add_div, ← add_div, ← add_div, div_eq_one_iff_eq hSpos.ne', hS]; ring
  have hsub : ∀ u, subgroup f1 f2 f3 u = if u ≤ p1 then 1 else if u ≤ p1 + p2 then 2 else if u ≤ 1 - p4 then 3 else 4 := by
    intro u
    unfold subgroup
    dsimp only
    rw [← hS, ← hp1, ← hp2, ← hp4]
    by_cases c1 : u ≤ p1
    · rw [if_neg (by linarith : ¬ u > 1 - p4), if_neg (by rintro ⟨h, _⟩; linarith), if_neg (by rintro ⟨h, _⟩; linarith), if_pos c1, if_pos c1]
    · simp only [if_neg c1]
      by_cases c2 : u ≤ p1 + p2
      · rw [if_neg (by linarith : ¬ u > 1 - p4), if_neg (by rintro ⟨h, _⟩; linarith), if_pos ⟨not_le.1 c1, c2⟩, if_pos c2]
      · simp only [if_neg c2]
        by_cases c3 : u ≤ 1 - p4
        · rw [if_neg (not_lt.2 c3 : ¬ u > 1 - p4), if_pos ⟨not_le.1 c2, c3⟩, if_pos c3]
        · simp only [if_neg c3, if_pos (not_le.1 c3 : u > 1 - p4)]
  have e1 : {u : ℝ | u ∈ Set.Ico (0 : ℝ) 1 ∧ statePart (subgroup f1 f2 f3 u) = (0, 0)} = Set.Icc 0 p1 := by
    ext u
    simp only [Set.mem_ofPred_eq, Set.mem_Ico, Set.mem_Icc, hsub]
    constructor
    · rintro ⟨⟨a, b⟩, h⟩
      split_ifs at h with c1 c2 c3
      · exact ⟨a, c1⟩
      all_goals simp [statePart] at h
    · rintro ⟨a, b⟩
      rw [if_pos b]
      exact ⟨⟨a, by linarith⟩, by simp [statePart]⟩
  have e2 : {u : ℝ | u ∈ Set.Ico (0 : ℝ) 1 ∧ statePart (subgroup f1 f2 f3 u) = (0, 1)} = Set.Ioc p1 (p1 + p2) := by
    ext u
    simp only [Set.mem_ofPred_eq, Set.mem_Ico, Set.mem_Ioc, hsub]
    constructor
    · rintro ⟨⟨a, b⟩, h⟩
      split_ifs at h with c1 c2 c3
      · simp [statePart] at h
      · exact ⟨not_le.1 c1, c2⟩
      all_goals simp [statePart] at h
    · rintro ⟨a, b⟩
      rw [if_neg (not_le.2 a), if_pos b]
      exact ⟨⟨by linarith, by linarith⟩, by simp [statePart]⟩
  have e3 : {u : ℝ | u ∈ Set.Ico (0 : ℝ) 1 ∧ statePart (subgroup f1 f2 f3 u) = (1, 0)} = Set.Ioc (p1 + p2) (1 - p4) := by
    ext u
    simp only [Set.mem_ofPred_eq, Set.mem_Ico, Set.mem_Ioc, hsub]
    constructor
    · rintro ⟨⟨a, b⟩, h⟩
      split_ifs at h with c1 c2 c3
      · simp [statePart] at h
      · simp [statePart] at h
      · exact ⟨not_le.1 c2, c3⟩
      all_goals simp [statePart] at h
    · rintro ⟨a, b⟩
      rw [if_neg (not_le.2 (by linarith)), if_neg (not_le.2 a), if_pos b]
      exact ⟨⟨by linarith, by linarith⟩, by simp [statePart]⟩
  have e4 : {u : ℝ | u ∈ Set.Ico (0 : ℝ) 1 ∧ statePart (subgroup f1 f2 f3 u) = (1, 1)} = Set.Ioo (1 - p4) 1 := by
    ext u
    simp only [Set.mem_ofPred_eq, Set.mem_Ico, Set.mem_Ioo, hsub]
    constructor
    · rintro ⟨⟨a, b⟩, h⟩
      split_ifs at h with c1 c2 c3
      · simp [statePart] at h
      · simp [statePart] at h
      · simp [statePart] at h
      · exact ⟨not_le.1 c3, b⟩
    · rintro ⟨a, b⟩
      rw [if_neg (not_le.2 (by linarith)), if_neg (not_le.2 (by linarith)), if_neg (not_le.2 a)]
      exact ⟨⟨by linarith, b⟩, by simp [statePart]⟩
  rw [e1, e2, e3, e4, ← hS, ← hp1, ← hp2, ← hp3, ← hp4]
  simp only [Measure.real, Real.volume_Icc, Real.volume_Ioc, Real.volume_Ioo]
  refine ⟨?_, ?_, ?_, ?_⟩ <;> rw [ENNReal.toReal_ofReal (by linarith)] <;> linarith

/-- One treated cohort, three free categories with odds one: each of the four combinations has probability one quarter. -/
example : volume.real {u : ℝ | u ∈ Set.Ico (0 : ℝ) 1 ∧ cohortPart 1 (groupType (softProbs (oddsOf [(1, 0, 0), (-1, 0, 0), (1, 0, 0)] 0)) u) =
    some (2, 1)} = 1 / 4 := by
  rw [(C239_scalable 1 [(1, 0, 0), (-1, 0, 0), (1, 0, 0)] rfl 0).2 2 1 (Or.inr ⟨le_rfl, le_rfl⟩) le_rfl]
  simp [oddsOf, fps2, oddsAt, catIndex]
  norm_num

end Verif.Sim
