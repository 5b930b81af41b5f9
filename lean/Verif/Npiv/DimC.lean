import Verif.Npiv.Dim

/-!
# The compiled glp dimension against the interpreted one (C91, general)
-/

set_option linter.unusedSectionVars false
set_option linter.unusedSimpArgs false

namespace Verif.Npiv

lemma sum_map_le' {f g : ℕ → ℕ} (l : List ℕ) (h : ∀ i ∈ l, f i ≤ g i) : (l.map f).sum ≤ (l.map g).sum := by
  induction l with
  | nil => simp
  | cons a t ih =>
    simp only [List.map_cons, List.sum_cons]
    exact Nat.add_le_add (h a (by simp)) (ih fun i hi => h i (by simp [hi]))

lemma sum_map_lt' {f g : ℕ → ℕ} (l : List ℕ) (h : ∀ i ∈ l, f i ≤ g i) (k : ℕ) (hk : k ∈ l) (hlt : f k < g k) :
    (l.map f).sum < (l.map g).sum := by
  induction l with
  | nil => cases hk
  | cons a t ih =>
    simp only [List.map_cons, List.sum_cons]
    rcases List.mem_cons.1 hk with rfl | hk'
    · exact Nat.add_lt_add_of_lt_of_le hlt (sum_map_le' t fun i hi => h i (by simp [hi]))
    · exact Nat.add_lt_add_of_le_of_lt (h a (by simp)) (ih (fun i hi => h i (by simp [hi])) hk')

/-- The interpreted inner sum: the terms of the compiled one, plus one more when the loop reaches index −1. -/
lemma glpNd_low (d1 d2 : ℕ) (nd : ℕ → ℕ) (j : ℕ) (hd : 2 ≤ d2) (hj : j < d1 - 1) :
    glpNd d1 d2 nd j = ((List.range (min (j + 1) d2)).map (fun c => nd (j - c))).sum + if j + 1 < d2 then 1 else 0 := by
  unfold glpNd
  rw [if_pos hj]
  by_cases h : j + 1 < d2
  · rw [if_pos h, show min (j + 1) (d2 - 1) = j + 1 by omega, show min (j + 1) d2 = j + 1 by omega,
      List.range_succ, List.map_append, List.sum_append]
    simp only [List.map_cons, List.map_nil, List.sum_cons, List.sum_nil]
    congr 1
    · congr 1
      apply List.map_congr_left
      intro c hc
      have : c < j + 1 := List.mem_range.1 hc
      rw [if_pos (by omega)]
      congr 1
      omega
    · simp
  · rw [if_neg h, show min (j + 1) (d2 - 1) + 1 = d2 by omega, show min (j + 1) d2 = d2 by omega, Nat.add_zero]
    congr 1
    apply List.map_congr_left
    intro c hc
    have : c < d2 := List.mem_range.1 hc
    rw [if_pos (by omega)]
    congr 1
    omega

lemma glpNd_le (d1 d2 : ℕ) (hd : 2 ≤ d2) (nd nd' : ℕ → ℕ) (h : ∀ j, nd j ≤ nd' j) (j : ℕ) :
    glpNdC d1 d2 nd j ≤ glpNd d1 d2 nd' j := by
  by_cases hj : j < d1 - 1
  · rw [glpNd_low d1 d2 nd' j hd hj]
    unfold glpNdC
    rw [if_pos hj]
    exact le_trans (sum_map_le' _ fun i _ => h _) (Nat.le_add_right _ _)
  · unfold glpNdC glpNd
    rw [if_neg hj, if_neg hj]
    refine Nat.add_le_add (h _) (sum_map_le' _ fun i _ => ?_)
    rw [show d1 - d2 + 1 + i - 1 = d1 - d2 + i by omega]
    exact h _

lemma glpNd_lt_zero (d1 d2 : ℕ) (h1 : 2 ≤ d1) (hd : 2 ≤ d2) (nd nd' : ℕ → ℕ) (h : ∀ j, nd j ≤ nd' j) :
    glpNdC d1 d2 nd 0 < glpNd d1 d2 nd' 0 := by
  rw [glpNd_low d1 d2 nd' 0 hd (by omega), if_pos (by omega)]
  unfold glpNdC
  rw [if_pos (by omega)]
  exact Nat.lt_succ_of_le (sum_map_le' _ fun i _ => h _)

lemma glpD12_le (d1 d2 : ℕ) (nd nd' : ℕ → ℕ) (h : ∀ j, nd j ≤ nd' j) : glpD12C d1 d2 nd ≤ glpD12 d1 d2 nd' := by
  unfold glpD12C glpD12
  refine Nat.add_le_add (Nat.add_le_add (Nat.add_le_add le_rfl (sum_map_le' _ fun i _ => ?_))
    (sum_map_le' _ fun i _ => ?_)) (h _)
  · exact Nat.mul_le_mul le_rfl (h _)
  · rw [show d1 - (i + 1) - 1 = d1 - (i + 2) by omega]
    exact Nat.mul_le_mul le_rfl (h _)

lemma glpD12_lt (d1 d2 : ℕ) (hd : 2 ≤ d2) (h12 : d2 ≤ d1) (nd nd' : ℕ → ℕ) (h : ∀ j, nd j ≤ nd' j) (h0 : nd 0 < nd' 0) :
    glpD12C d1 d2 nd < glpD12 d1 d2 nd' := by
  have hb : ∀ i ∈ List.range (d2 - 1), (i + 1 + 1) * nd (d1 - (i + 1) - 1) ≤ (i + 2) * nd' (d1 - (i + 2)) := by
    intro i _
    rw [show d1 - (i + 1) - 1 = d1 - (i + 2) by omega]
    exact Nat.mul_le_mul le_rfl (h _)
  have ha : ∀ i ∈ List.range (d1 - d2), d2 * nd i ≤ d2 * nd' i := fun i _ => Nat.mul_le_mul le_rfl (h _)
  unfold glpD12C glpD12
  refine Nat.add_lt_add_of_lt_of_le ?_ (h _)
  by_cases hlt : d2 < d1
  · refine Nat.add_lt_add_of_lt_of_le (Nat.add_lt_add_of_le_of_lt le_rfl ?_) (sum_map_le' _ hb)
    refine sum_map_lt' _ ha 0 (List.mem_range.2 (by omega)) ?_
    exact Nat.mul_lt_mul_of_pos_left h0 (by omega)
  · have e : d1 = d2 := by omega
    refine Nat.add_lt_add_of_le_of_lt (Nat.add_le_add le_rfl (sum_map_le' _ ha)) ?_
    refine sum_map_lt' _ hb (d2 - 2) (List.mem_range.2 (by omega)) ?_
    rw [e, show d2 - (d2 - 2 + 1) - 1 = 0 by omega, show d2 - (d2 - 2 + 2) = 0 by omega]
    exact Nat.mul_lt_mul_of_pos_left h0 (by omega)

lemma fold_le (d1 : ℕ) (ds : List ℕ) (hds : ∀ d ∈ ds, 1 ≤ d) (st st' : ℕ × (ℕ → ℕ)) (h1 : st.1 ≤ st'.1)
    (h2 : ∀ j, st.2 j ≤ st'.2 j) : (ds.foldl (glpStepC d1) st).1 ≤ (ds.foldl (glpStep d1) st').1 := by
  induction ds generalizing st st' with
  | nil => exact h1
  | cons d t ih =>
    rw [List.foldl_cons, List.foldl_cons]
    have hd := hds d (by simp)
    apply ih (fun d hd => hds d (by simp [hd]))
    · unfold glpStepC glpStep
      split_ifs
      · exact h1
      · exact glpD12_le d1 d _ _ h2
    · intro j
      unfold glpStepC glpStep
      split_ifs with h
      · exact h2 j
      · exact glpNd_le d1 d (by omega) _ _ h2 j

lemma fold_lt (d1 : ℕ) (hd1 : 2 ≤ d1) (ds : List ℕ) (hne : ds ≠ []) (hds : ∀ d ∈ ds, 2 ≤ d ∧ d ≤ d1)
    (st st' : ℕ × (ℕ → ℕ)) (h2 : ∀ j, st.2 j ≤ st'.2 j) (h0 : st.2 0 < st'.2 0) :
    (ds.foldl (glpStepC d1) st).1 < (ds.foldl (glpStep d1) st').1 := by
  induction ds generalizing st st' with
  | nil => exact absurd rfl hne
  | cons d t ih =>
    rw [List.foldl_cons, List.foldl_cons]
    obtain ⟨hd, hd'⟩ := hds d (by simp)
    have e1 : glpStepC d1 st d = (glpD12C d1 d st.2, glpNdC d1 d st.2) := by
      unfold glpStepC; rw [if_neg (by omega)]
    have e2 : glpStep d1 st' d = (glpD12 d1 d st'.2, glpNd d1 d st'.2) := by
      unfold glpStep; rw [if_neg (by omega)]
    rw [e1, e2]
    by_cases ht : t = []
    · subst ht
      exact glpD12_lt d1 d hd hd' _ _ h2 h0
    · exact ih ht (fun d hd => hds d (by simp [hd])) _ _ (glpNd_le d1 d hd _ _ h2) (glpNd_lt_zero d1 d hd1 hd _ _ h2)

/-- **C91 (glp).** The compiled glp dimension never exceeds the interpreted one. -/
theorem C91_glp_le (K : List (ℕ × ℕ)) : basisDimensionC .glp K ≤ basisDimension .glp K := by
  unfold basisDimensionC basisDimension
  dsimp only
  have hpos : ∀ d ∈ sortDesc (glpSizes K), 1 ≤ d := by
    intro d hd
    have := (sortDesc_perm _).mem_iff.1 hd
    unfold glpSizes at this
    have h0 := (List.mem_filter.1 this).2
    simp only [decide_eq_true_eq] at h0
    exact h0
  split
  · rename_i h
    simp [glpSizes, h, sortDesc, glpDimC]
  · match hsd : sortDesc (glpSizes K) with
    | [] => exact le_rfl
    | [d] => simp [glpDimC, glpDim]
    | d1 :: d2 :: ds =>
      rw [hsd] at hpos
      simp only [glpDimC, glpDim]
      refine Nat.add_le_add ?_ le_rfl
      exact fold_le d1 (d2 :: ds) (fun d hd => hpos d (List.mem_cons_of_mem _ hd)) _ _ le_rfl (fun j => le_rfl)

example : basisDimensionC .glp [(3, 2), (2, 2), (2, 3)] = 23 ∧ basisDimension .glp [(3, 2), (2, 2), (2, 3)] = 31 := by decide

/-- **C91 (violated).** With three or more regressors, each with at least two basis functions, the compiled glp dimension is
always smaller than the interpreted one. -/
theorem C91_glp_violated (K : List (ℕ × ℕ)) (h3 : 3 ≤ (active K).length) (hd : ∀ p ∈ active K, 2 ≤ p.1 + p.2 - 1) :
    basisDimensionC .glp K < basisDimension .glp K := by
  have hsz : glpSizes K = (active K).map (fun p => p.1 + p.2 - 1) := by
    unfold glpSizes
    rw [List.filter_eq_self]
    intro d hm
    obtain ⟨p, hp, rfl⟩ := List.mem_map.1 hm
    have := hd p hp
    simp only [decide_eq_true_eq]
    omega
  have hlen : (sortDesc (glpSizes K)).length = (active K).length := by
    rw [(sortDesc_perm _).length_eq, hsz, List.length_map]
  have hge : ∀ d ∈ sortDesc (glpSizes K), 2 ≤ d := by
    intro d hm
    have := (sortDesc_perm _).mem_iff.1 hm
    rw [hsz] at this
    obtain ⟨p, hp, rfl⟩ := List.mem_map.1 this
    exact hd p hp
  have hs := sortDesc_sorted (glpSizes K)
  unfold basisDimensionC basisDimension
  dsimp only
  rw [if_neg (by intro h; rw [h] at h3; simp at h3)]
  match hsd : sortDesc (glpSizes K), hlen with
  | [], h => simp at h; omega
  | [d], h => simp at h; omega
  | [a, b], h => simp at h; omega
  | d1 :: d2 :: d3 :: ds, _ =>
    rw [hsd] at hge hs
    have hle : ∀ d ∈ d2 :: d3 :: ds, d ≤ d1 := (List.pairwise_cons.1 hs).1
    have hd1 := hge d1 (by simp)
    have hd2 := hge d2 (by simp)
    simp only [glpDimC, glpDim]
    refine Nat.add_lt_add_right ?_ _
    have e1 : ∀ st, glpStepC d1 st d2 = (glpD12C d1 d2 st.2, glpNdC d1 d2 st.2) := by
      intro st; unfold glpStepC; rw [if_neg (by omega)]
    have e2 : ∀ st, glpStep d1 st d2 = (glpD12 d1 d2 st.2, glpNd d1 d2 st.2) := by
      intro st; unfold glpStep; rw [if_neg (by omega)]
    have f1 : ∀ st, (d2 :: d3 :: ds).foldl (glpStepC d1) st = (d3 :: ds).foldl (glpStepC d1) (glpStepC d1 st d2) :=
      fun st => rfl
    have f2 : ∀ st, (d2 :: d3 :: ds).foldl (glpStep d1) st = (d3 :: ds).foldl (glpStep d1) (glpStep d1 st d2) :=
      fun st => rfl
    rw [f1, f2, e1, e2]
    exact fold_lt d1 hd1 (d3 :: ds) (by simp)
      (fun d hm => ⟨hge d (by simp only [List.mem_cons] at hm ⊢; tauto), hle d (List.mem_cons_of_mem _ hm)⟩) _ _
      (glpNd_le d1 d2 hd2 _ _ fun j => le_rfl) (glpNd_lt_zero d1 d2 hd1 hd2 _ _ fun j => le_rfl)

/-- Three quadratic regressors: 7 against 9. -/
example : basisDimensionC .glp [(2, 1), (2, 1), (2, 1)] = 7 ∧ basisDimension .glp [(2, 1), (2, 1), (2, 1)] = 9 ∧
    3 ≤ (active [((2 : ℕ), (1 : ℕ)), (2, 1), (2, 1)]).length := by decide

end Verif.Npiv
