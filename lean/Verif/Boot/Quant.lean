import Verif.Boot.QuantLemmas
import Verif.Boot.Model
import Mathlib.Tactic.NormNum
import Mathlib.Algebra.Order.Field.Rat
import Mathlib.Algebra.Order.Archimedean.Basic
import Mathlib.Data.Rat.Floor
import Mathlib.Data.Fin.VecNotation
import Mathlib.Algebra.BigOperators.Fin
import Mathlib.Data.List.FinRange
import Mathlib.Algebra.Order.BigOperators.Ring.Finset

/-!
# Bootstrap standard errors and critical values (C131-C135)

A draw matrix is `drawsOf r mult psi` for influence values `psi` and multipliers `mult`; the statements below speak about
the reported numbers as functions of `psi`.
-/

set_option linter.unusedSectionVars false
set_option linter.unusedSimpArgs false

namespace Verif.Boot

section
variable {K : Type*} [Field K] [LinearOrder K] [IsStrictOrderedRing K] [FloorRing K]
variable {B n : ℕ}

theorem normIqr_pos : (0 : K) < normIqr := by unfold normIqr; positivity

theorem ofFn_ne_nil {α : Type*} (hB : 0 < B) (b : Fin B → α) : List.ofFn b ≠ [] := by
  intro h
  have := congrArg List.length h
  simp at this; omega

theorem iqrSigma_zero_draws (b : Fin B → K) (hB : B = 0) : iqrSigma b = 0 := by
  subst hB
  simp [iqrSigma, percentile]

theorem iqrSigma_nonneg (b : Fin B → K) : 0 ≤ iqrSigma b := by
  rcases Nat.eq_zero_or_pos B with h | h
  · rw [iqrSigma_zero_draws b h]
  · unfold iqrSigma
    apply div_nonneg _ normIqr_pos.le
    exact sub_nonneg.mpr (percentile_le_percentile (ofFn_ne_nil h b) (by norm_num) (by norm_num) (by norm_num))

theorem iqrSigma_const (v : K) : iqrSigma (fun _ : Fin B => v) = 0 := by
  rcases Nat.eq_zero_or_pos B with h | h
  · exact iqrSigma_zero_draws _ h
  · have hb : ∀ x ∈ List.ofFn (fun _ : Fin B => v), v ≤ x ∧ x ≤ v := by
      intro x hx
      obtain ⟨_, rfl⟩ := (List.mem_ofFn' _ _).mp hx
      exact ⟨le_rfl, le_rfl⟩
    unfold iqrSigma
    have h1 := percentile_bounds (q := (3 / 4 : K)) hb (ofFn_ne_nil h _) (by norm_num) (by norm_num)
    have h2 := percentile_bounds (q := (1 / 4 : K)) hb (ofFn_ne_nil h _) (by norm_num) (by norm_num)
    rw [le_antisymm h1.2 h1.1, le_antisymm h2.2 h2.1]; simp

theorem iqrSigma_neg (b : Fin B → K) : iqrSigma (fun i => - b i) = iqrSigma b := by
  rcases Nat.eq_zero_or_pos B with h | h
  · rw [iqrSigma_zero_draws _ h, iqrSigma_zero_draws _ h]
  · unfold iqrSigma
    have e : List.ofFn (fun i => - b i) = (List.ofFn b).map (fun x => -x) := by rw [List.map_ofFn]; rfl
    rw [e, percentile_neg (ofFn_ne_nil h b) (by norm_num) (by norm_num),
      percentile_neg (ofFn_ne_nil h b) (by norm_num) (by norm_num)]
    have e1 : (1 - 3 / 4 : K) = 1 / 4 := by norm_num
    have e2 : (1 - 1 / 4 : K) = 3 / 4 := by norm_num
    rw [e1, e2]
    congr 1; ring

theorem iqrSigma_pos_smul (b : Fin B → K) {c : K} (hc : 0 < c) : iqrSigma (fun i => c * b i) = c * iqrSigma b := by
  rcases Nat.eq_zero_or_pos B with h | h
  · rw [iqrSigma_zero_draws _ h, iqrSigma_zero_draws _ h, mul_zero]
  · unfold iqrSigma
    have e : List.ofFn (fun i => c * b i) = (List.ofFn b).map (c * ·) := by rw [List.map_ofFn]; rfl
    rw [e, percentile_smul hc (ofFn_ne_nil h b) (by norm_num) (by norm_num),
      percentile_smul hc (ofFn_ne_nil h b) (by norm_num) (by norm_num)]
    ring

/-- The spread is homogeneous. -/
theorem iqrSigma_smul (b : Fin B → K) (c : K) : iqrSigma (fun i => c * b i) = |c| * iqrSigma b := by
  rcases lt_trichotomy c 0 with hc | hc | hc
  · have : (fun i => c * b i) = fun i => - (|c| * b i) := by
      funext i; rw [abs_of_neg hc]; ring
    rw [this, iqrSigma_neg (fun i => |c| * b i), iqrSigma_pos_smul b (abs_pos.mpr hc.ne)]
  · subst hc; simp [iqrSigma_const]
  · rw [abs_of_pos hc, iqrSigma_pos_smul b hc]

theorem iqrSigma_perm (b : Fin B → K) (e : Equiv.Perm (Fin B)) : iqrSigma (fun i => b (e i)) = iqrSigma b := by
  unfold iqrSigma
  have : (List.ofFn fun i => b (e i)).Perm (List.ofFn b) := Equiv.Perm.ofFn_comp_perm e b
  rw [percentile_perm this, percentile_perm this]

theorem nondegenerate_iff {tol : K} {b : Fin B → K} : nondegenerate tol b = true ↔ tol < ∑ i, b i ^ 2 := by
  simp [nondegenerate]

theorem drawsOf_smul (r : K) (mult : Fin B → Fin n → K) (psi : Fin n → K) (c : K) :
    drawsOf r mult (fun i => c * psi i) = fun b => c * drawsOf r mult psi b := by
  funext b
  unfold drawsOf
  simp only [mul_assoc, ← Finset.mul_sum]
  ring

theorem sum_sq_smul (b : Fin B → K) (c : K) : ∑ i, (c * b i) ^ 2 = c ^ 2 * ∑ i, b i ^ 2 := by
  rw [Finset.mul_sum]; exact Finset.sum_congr rfl fun i _ => by ring

theorem mbootSe_some {tol r s : K} {b : Fin B → K} (h : mbootSe tol r b = some s) :
    nondegenerate tol b = true ∧ s = iqrSigma b / r := by
  unfold mbootSe at h
  split_ifs at h with h1
  exact ⟨h1, (Option.some.inj h).symm⟩

/-! ## C131: standard errors -/

/-- C131: multiplying every influence value by `c` (a change of outcome units) multiplies the standard error by `|c|`,
whenever both are reported. -/
theorem C131_rescale {tol r s s' : K} (mult : Fin B → Fin n → K) (psi : Fin n → K) (c : K)
    (h : mbootSe tol r (drawsOf r mult psi) = some s)
    (h' : mbootSe tol r (drawsOf r mult (fun i => c * psi i)) = some s') : s' = |c| * s := by
  obtain ⟨_, rfl⟩ := mbootSe_some h
  obtain ⟨_, rfl⟩ := mbootSe_some h'
  rw [drawsOf_smul, iqrSigma_smul]; ring

/-- C131: coarser units never lose a standard error. -/
theorem C131_rescale_up {tol r s : K} (htol : 0 ≤ tol) (mult : Fin B → Fin n → K) (psi : Fin n → K) (c : K)
    (hc : 1 ≤ |c|) (h : mbootSe tol r (drawsOf r mult psi) = some s) :
    mbootSe tol r (drawsOf r mult (fun i => c * psi i)) = some (|c| * s) := by
  obtain ⟨h1, rfl⟩ := mbootSe_some h
  rw [nondegenerate_iff] at h1
  have h2 : nondegenerate tol (drawsOf r mult (fun i => c * psi i)) = true := by
    rw [nondegenerate_iff, drawsOf_smul, sum_sq_smul]
    have hc2 : 1 ≤ c ^ 2 := by rw [← sq_abs]; nlinarith
    nlinarith
  unfold mbootSe
  rw [if_pos h2, drawsOf_smul, iqrSigma_smul]
  congr 1; ring

/-- C131: reversing the sign of the outcome changes nothing, missing values included. -/
theorem C131_sign (tol r : K) (mult : Fin B → Fin n → K) (psi : Fin n → K) :
    mbootSe tol r (drawsOf r mult (fun i => - psi i)) = mbootSe tol r (drawsOf r mult psi) ∧
    mbootDddSe tol r (drawsOf r mult (fun i => - psi i)) = mbootDddSe tol r (drawsOf r mult psi) := by
  have e : drawsOf r mult (fun i => - psi i) = fun b => - drawsOf r mult psi b := by
    have := drawsOf_smul r mult psi (-1)
    simpa using this
  have d : nondegenerate tol (fun b => - drawsOf r mult psi b) = nondegenerate tol (drawsOf r mult psi) := by
    unfold nondegenerate; simp
  unfold mbootSe mbootDddSe
  rw [e, d, iqrSigma_neg (drawsOf r mult psi)]
  exact ⟨rfl, rfl⟩

/-- C131: the order in which the draws were made does not matter. -/
theorem C131_draw_order (tol r : K) (mult : Fin B → Fin n → K) (psi : Fin n → K) (e : Equiv.Perm (Fin B)) :
    mbootSe tol r (drawsOf r (fun b => mult (e b)) psi) = mbootSe tol r (drawsOf r mult psi) ∧
    mbootDddSe tol r (drawsOf r (fun b => mult (e b)) psi) = mbootDddSe tol r (drawsOf r mult psi) := by
  have e1 : drawsOf r (fun b => mult (e b)) psi = fun b => drawsOf r mult psi (e b) := rfl
  have d : nondegenerate tol (fun b => drawsOf r mult psi (e b)) = nondegenerate tol (drawsOf r mult psi) := by
    unfold nondegenerate
    rw [Equiv.sum_comp e (fun b => drawsOf r mult psi b ^ 2)]
  unfold mbootSe mbootDddSe
  rw [e1, d, iqrSigma_perm (drawsOf r mult psi) e]
  exact ⟨rfl, rfl⟩

/-- C131: reordering the units together with their multipliers does not matter. -/
theorem C131_unit_order (tol r : K) (mult : Fin B → Fin n → K) (psi : Fin n → K) (e : Equiv.Perm (Fin n)) :
    mbootSe tol r (drawsOf r (fun b i => mult b (e i)) (fun i => psi (e i))) = mbootSe tol r (drawsOf r mult psi) := by
  have e1 : drawsOf r (fun b i => mult b (e i)) (fun i => psi (e i)) = drawsOf r mult psi := by
    funext b
    unfold drawsOf
    rw [Equiv.sum_comp e (fun i => psi i * mult b i)]
  rw [e1]

/-- C131: a reported standard error is never negative. -/
theorem C131_nonneg {tol r s : K} (hr : 0 < r) (b : Fin B → K) :
    (mbootSe tol r b = some s → 0 ≤ s) ∧ (0 ≤ tol → mbootDddSe tol r b = some s → 0 < s) := by
  constructor
  · intro h
    obtain ⟨_, rfl⟩ := mbootSe_some h
    exact div_nonneg (iqrSigma_nonneg b) hr.le
  · intro htol h
    unfold mbootDddSe at h
    split_ifs at h with h1 h2
    obtain rfl := Option.some.inj h
    exact div_pos (lt_of_le_of_lt htol (not_le.mp h2)) hr

/-- C131: what the estimators report after blanking is strictly above the tolerance. -/
theorem C131_reported {tol s : K} (se : Option K) (h : reportSe tol se = some s) : se = some s ∧ tol < s := by
  unfold reportSe at h
  cases se with
  | none => simp at h
  | some a =>
    simp only [Option.bind_some] at h
    split_ifs at h with h1
    obtain rfl := Option.some.inj h
    exact ⟨rfl, not_le.mp h1⟩

/-- C131 (Violated): the cut-off is absolute, so for every data set there are units of measurement in which the standard
error is missing, in both bootstraps. -/
theorem C131_units_violated {tol : K} (htol : 0 < tol) (r : K) (mult : Fin B → Fin n → K) (psi : Fin n → K) :
    ∃ c : K, 0 < c ∧ mbootSe tol r (drawsOf r mult (fun i => c * psi i)) = none ∧
      mbootDddSe tol r (drawsOf r mult (fun i => c * psi i)) = none := by
  set S := ∑ b, drawsOf r mult psi b ^ 2 with hS
  have hS0 : 0 ≤ S := Finset.sum_nonneg fun _ _ => sq_nonneg _
  refine ⟨min 1 (tol / (S + 1)), lt_min one_pos (by positivity), ?_⟩
  set c := min 1 (tol / (S + 1)) with hc
  have hc0 : 0 < c := lt_min one_pos (by positivity)
  have hc1 : c ≤ 1 := min_le_left _ _
  have hc2 : c * (S + 1) ≤ tol := by
    rw [← le_div_iff₀ (by linarith)]; exact min_le_right _ _
  have hd : nondegenerate tol (drawsOf r mult (fun i => c * psi i)) = false := by
    rw [← Bool.not_eq_true, nondegenerate_iff, drawsOf_smul, sum_sq_smul, ← hS, not_lt]
    nlinarith [mul_nonneg hc0.le hS0, mul_nonneg (mul_nonneg hc0.le hS0) (sub_nonneg.mpr hc1)]
  simp [mbootSe, mbootDddSe, hd]

/-! ## C132, C133: simultaneous critical values -/

variable {κ κ' : Type*} [Fintype κ] [Fintype κ']

theorem mem_cleanCols {tol : K} {bres : κ → Fin B → K} {j : κ} :
    j ∈ cleanCols tol bres ↔ nondegenerate tol (bres j) = true := by simp [cleanCols]

/-- When a value is reported, no kept column is unusable and it is the percentile of all `B` row maxima. -/
theorem critWith_some {bad : K → Bool} {tol alpha c : K} {bres : κ → Fin B → K}
    (h : critWith bad tol alpha bres = some c) :
    0 < B ∧ (∃ j, nondegenerate tol (bres j) = true) ∧
      (∀ j, nondegenerate tol (bres j) = true → bad (iqrSigma (bres j)) = false) ∧
      c = percentile (1 - alpha) (List.ofFn fun b : Fin B =>
        (cleanCols tol bres).fold max 0 fun j => |bres j b / iqrSigma (bres j)|) := by
  unfold critWith at h
  simp only at h
  split_ifs at h with h1 h2
  by_cases hb : ∃ j ∈ cleanCols tol bres, bad (iqrSigma (bres j)) = true
  · exfalso
    apply h2
    simp [maxT, hb, List.filterMap_eq_nil_iff]
  · have hrows : (List.ofFn fun b : Fin B =>
        maxT (cleanCols tol bres) (fun j => iqrSigma (bres j)) bad bres b).filterMap id =
        List.ofFn fun b : Fin B => (cleanCols tol bres).fold max 0 fun j => |bres j b / iqrSigma (bres j)| := by
      have : (List.ofFn fun b : Fin B => maxT (cleanCols tol bres) (fun j => iqrSigma (bres j)) bad bres b) =
          (List.ofFn fun b : Fin B => (cleanCols tol bres).fold max 0 fun j => |bres j b / iqrSigma (bres j)|).map
            some := by
        rw [List.map_ofFn]
        congr 1; funext b; simp only [maxT, hb, if_false, Function.comp]
      rw [this, List.filterMap_map]
      simp
    rw [hrows] at h h2
    refine ⟨?_, ?_, ?_, (Option.some.inj h).symm⟩
    · by_contra hB
      have : B = 0 := by omega
      subst this
      simp at h2
    · obtain ⟨j, hj⟩ := Finset.card_pos.mp (Nat.pos_of_ne_zero h1)
      exact ⟨j, mem_cleanCols.mp hj⟩
    · intro j hj
      by_contra hbad
      exact hb ⟨j, mem_cleanCols.mpr hj, by simpa using hbad⟩

/-- Conversely, the value is reported as soon as there is a usable column and no unusable one. -/
theorem critWith_eq {bad : K → Bool} {tol alpha : K} {bres : κ → Fin B → K} (hB : 0 < B)
    (h1 : ∃ j, nondegenerate tol (bres j) = true)
    (h2 : ∀ j, nondegenerate tol (bres j) = true → bad (iqrSigma (bres j)) = false) :
    critWith bad tol alpha bres = some (percentile (1 - alpha) (List.ofFn fun b : Fin B =>
        (cleanCols tol bres).fold max 0 fun j => |bres j b / iqrSigma (bres j)|)) := by
  have hb : ¬ ∃ j ∈ cleanCols tol bres, bad (iqrSigma (bres j)) = true := by
    rintro ⟨j, hj, hbad⟩
    rw [h2 j (mem_cleanCols.mp hj)] at hbad
    exact absurd hbad (by simp)
  have hrows : (List.ofFn fun b : Fin B =>
      maxT (cleanCols tol bres) (fun j => iqrSigma (bres j)) bad bres b).filterMap id =
      List.ofFn fun b : Fin B => (cleanCols tol bres).fold max 0 fun j => |bres j b / iqrSigma (bres j)| := by
    have : (List.ofFn fun b : Fin B => maxT (cleanCols tol bres) (fun j => iqrSigma (bres j)) bad bres b) =
        (List.ofFn fun b : Fin B => (cleanCols tol bres).fold max 0 fun j => |bres j b / iqrSigma (bres j)|).map
          some := by
      rw [List.map_ofFn]
      congr 1; funext b; simp only [maxT, hb, if_false, Function.comp]
    rw [this, List.filterMap_map]
    simp
  obtain ⟨j, hj⟩ := h1
  have hc : (cleanCols tol bres).card ≠ 0 := (Finset.card_pos.mpr ⟨j, mem_cleanCols.mpr hj⟩).ne'
  unfold critWith
  simp only
  rw [if_neg hc, hrows, if_neg (ofFn_ne_nil hB _)]

theorem critWith_none {bad : K → Bool} {tol alpha : K} {bres : κ → Fin B → K} (hB : 0 < B) :
    critWith bad tol alpha bres = none ↔ (∀ j, nondegenerate tol (bres j) = false) ∨
      ∃ j, nondegenerate tol (bres j) = true ∧ bad (iqrSigma (bres j)) = true := by
  constructor
  · intro h
    by_contra hcon
    push Not at hcon
    obtain ⟨⟨j, hj⟩, h2⟩ := hcon
    rw [critWith_eq hB ⟨j, by simpa using hj⟩ (fun j hj => by simpa using h2 j hj)] at h
    exact absurd h (by simp)
  · intro h
    cases hc : critWith bad tol alpha bres with
    | none => rfl
    | some c =>
      obtain ⟨_, ⟨j, hj⟩, h2, _⟩ := critWith_some hc
      rcases h with h | ⟨j', h3, h4⟩
      · rw [h j] at hj; exact absurd hj (by simp)
      · rw [h2 j' h3] at h4; exact absurd h4 (by simp)

/-- A draw lies inside the simultaneous band with critical value `c`. -/
def Inside (tol c : K) (bres : κ → Fin B → K) (b : Fin B) : Prop :=
  ∀ j, nondegenerate tol (bres j) = true → |bres j b| ≤ c * iqrSigma (bres j)

theorem countP_ofFn_card (f : Fin B → K) (p : K → Bool) :
    (List.ofFn f).countP p = (Finset.univ.filter fun b => p (f b) = true).card := by
  rw [List.ofFn_eq_map, List.countP_map, List.countP_eq_length_filter, Fin.univ_def, Finset.card,
    Finset.filter]
  simp [Function.comp_def]

theorem fold_max_le_iff (s : Finset κ) (f : κ → K) (c : K) (hc : 0 ≤ c) :
    s.fold max 0 f ≤ c ↔ ∀ j ∈ s, f j ≤ c := by
  rw [Finset.fold_max_le]; simp [hc]

theorem fold_nonneg (s : Finset κ) (f : κ → K) : 0 ≤ s.fold max 0 f := by
  rw [Finset.le_fold_max]; exact Or.inl le_rfl

theorem coverage_aux {bad : K → Bool} (hz : bad 0 = true) {tol alpha c : K} (h0 : 0 ≤ alpha) (h1 : alpha ≤ 1)
    (bres : κ → Fin B → K) (h : critWith bad tol alpha bres = some c) [DecidablePred (Inside tol c bres)] :
    ⌊((B - 1 : ℕ) : K) * (1 - alpha)⌋₊ + 1 ≤ (Finset.univ.filter (Inside tol c bres)).card := by
  obtain ⟨hB, hex, hbad, hc⟩ := critWith_some h
  have hcov := percentile_cover (q := 1 - alpha) (ofFn_ne_nil hB (fun b : Fin B =>
        (cleanCols tol bres).fold max 0 fun j => |bres j b / iqrSigma (bres j)|)) (by linarith) (by linarith)
  rw [List.length_ofFn, ← hc, countP_ofFn_card] at hcov
  refine hcov.trans (Finset.card_le_card ?_)
  intro b hb
  simp only [Finset.mem_filter, Finset.mem_univ, true_and, decide_eq_true_eq] at hb ⊢
  intro j hj
  have hc0 : 0 ≤ c := (fold_nonneg _ _).trans hb
  have h3 := (fold_max_le_iff _ _ _ hc0).mp hb j (mem_cleanCols.mpr hj)
  have hs : 0 < iqrSigma (bres j) :=
    lt_of_le_of_ne (iqrSigma_nonneg _) (fun he => by have := hbad j hj; rw [← he, hz] at this; exact absurd this (by simp))
  rw [abs_div, abs_of_pos hs, div_le_iff₀ hs] at h3
  exact h3

theorem tight_aux {bad : K → Bool} (hz : bad 0 = true) {tol alpha c c' : K} (h0 : 0 ≤ alpha) (h1 : alpha ≤ 1)
    (bres : κ → Fin B → K) (h : critWith bad tol alpha bres = some c) (hlt : c' < c)
    [DecidablePred (Inside tol c' bres)] :
    (Finset.univ.filter (Inside tol c' bres)).card ≤ ⌊((B - 1 : ℕ) : K) * (1 - alpha)⌋₊ + 1 := by
  obtain ⟨hB, ⟨j0, hj0⟩, hbad, hc⟩ := critWith_some h
  have hcov := percentile_cover_lt (q := 1 - alpha) (ofFn_ne_nil hB (fun b : Fin B =>
        (cleanCols tol bres).fold max 0 fun j => |bres j b / iqrSigma (bres j)|)) (by linarith) (by linarith)
  rw [List.length_ofFn, ← hc, countP_ofFn_card] at hcov
  refine le_trans (Finset.card_le_card ?_) hcov
  intro b hb
  simp only [Finset.mem_filter, Finset.mem_univ, true_and, decide_eq_true_eq] at hb ⊢
  refine lt_of_le_of_lt ?_ hlt
  have hpos : ∀ j, nondegenerate tol (bres j) = true → 0 < iqrSigma (bres j) := fun j hj =>
    lt_of_le_of_ne (iqrSigma_nonneg _) (fun he => by have := hbad j hj; rw [← he, hz] at this; exact absurd this (by simp))
  have hc0 : 0 ≤ c' := by
    have := hb j0 hj0
    by_contra hneg
    have := mul_neg_of_neg_of_pos (not_le.mp hneg) (hpos j0 hj0)
    linarith [abs_nonneg (bres j0 b)]
  rw [fold_max_le_iff _ _ _ hc0]
  intro j hj
  have hs := hpos j (mem_cleanCols.mp hj)
  rw [abs_div, abs_of_pos hs, div_le_iff₀ hs]
  exact hb j (mem_cleanCols.mp hj)

/-- C132: with a reported critical value (of either bootstrap), at least `⌊(B-1)(1-alpha)⌋ + 1` of the `B` draws lie
inside the band simultaneously for all cells. -/
theorem C132_coverage {tol alpha c : K} (htol : 0 ≤ tol) (h0 : 0 ≤ alpha) (h1 : alpha ≤ 1) (bres : κ → Fin B → K)
    (h : mbootCrit tol alpha bres = some c ∨ mbootDddCrit tol alpha bres = some c)
    [DecidablePred (Inside tol c bres)] :
    ⌊((B - 1 : ℕ) : K) * (1 - alpha)⌋₊ + 1 ≤ (Finset.univ.filter (Inside tol c bres)).card := by
  rcases h with h | h
  · exact coverage_aux (bad := fun s : K => decide (s = 0)) (by simp) h0 h1 bres h
  · exact coverage_aux (bad := fun s : K => decide (s ≤ tol)) (by simpa using htol) h0 h1 bres h

/-- C132: the critical value is not larger than needed: for every smaller value `c'`, at most `⌊(B-1)(1-alpha)⌋ + 1`
draws lie inside the band. -/
theorem C132_tight {tol alpha c c' : K} (htol : 0 ≤ tol) (h0 : 0 ≤ alpha) (h1 : alpha ≤ 1) (bres : κ → Fin B → K)
    (h : mbootCrit tol alpha bres = some c ∨ mbootDddCrit tol alpha bres = some c) (hlt : c' < c)
    [DecidablePred (Inside tol c' bres)] :
    (Finset.univ.filter (Inside tol c' bres)).card ≤ ⌊((B - 1 : ℕ) : K) * (1 - alpha)⌋₊ + 1 := by
  rcases h with h | h
  · exact tight_aux (bad := fun s : K => decide (s = 0)) (by simp) h0 h1 bres h hlt
  · exact tight_aux (bad := fun s : K => decide (s ≤ tol)) (by simpa using htol) h0 h1 bres h hlt

/-- C132: measuring the outcome of every cell in its own units (including a change of sign) does not move the critical
value, as long as the same cells stay above the cut-off. -/
theorem C132_rescale (tol alpha : K) (bres : κ → Fin B → K) (c : κ → K) (hc : ∀ j, c j ≠ 0)
    (hd : ∀ j, nondegenerate tol (fun b => c j * bres j b) = nondegenerate tol (bres j)) :
    mbootCrit tol alpha (fun j b => c j * bres j b) = mbootCrit tol alpha bres := by
  rcases Nat.eq_zero_or_pos B with hB | hB
  · have hnone : ∀ x : κ → Fin B → K, mbootCrit tol alpha x = none := by
      intro x
      cases hx : mbootCrit tol alpha x with
      | none => rfl
      | some c => have := (critWith_some hx).1; omega
    rw [hnone, hnone]
  have hs : ∀ j, iqrSigma (fun b => c j * bres j b) = |c j| * iqrSigma (bres j) := fun j => iqrSigma_smul _ _
  have hbad : ∀ j, decide (iqrSigma (fun b => c j * bres j b) = 0) = decide (iqrSigma (bres j) = 0) := by
    intro j; rw [hs]; simp [hc j]
  have hcl : cleanCols tol (fun j b => c j * bres j b) = cleanCols tol bres := by
    ext j; rw [mem_cleanCols, mem_cleanCols, hd]
  have hval : ∀ j b, |c j * bres j b / iqrSigma (fun b => c j * bres j b)| = |bres j b / iqrSigma (bres j)| := by
    intro j b
    rw [hs, abs_div, abs_div, abs_mul, abs_mul, abs_abs, mul_div_mul_left _ _ (abs_ne_zero.mpr (hc j))]
  unfold mbootCrit critWith maxT
  simp only [hcl, hbad, hval]

/-- C132: the order of the draws does not matter. -/
theorem C132_draw_order (tol alpha : K) (bres : κ → Fin B → K) (e : Equiv.Perm (Fin B)) :
    mbootCrit tol alpha (fun j b => bres j (e b)) = mbootCrit tol alpha bres := by
  have hs : ∀ j, iqrSigma (fun b => bres j (e b)) = iqrSigma (bres j) := fun j => iqrSigma_perm _ e
  have hd : ∀ j, nondegenerate tol (fun b => bres j (e b)) = nondegenerate tol (bres j) := by
    intro j; unfold nondegenerate; rw [Equiv.sum_comp e (fun b => bres j b ^ 2)]
  have hcl : cleanCols tol (fun j b => bres j (e b)) = cleanCols tol bres := by
    ext j; rw [mem_cleanCols, mem_cleanCols, hd]
  unfold mbootCrit critWith
  simp only [hcl, hs]
  have hperm : (List.ofFn fun b => maxT (cleanCols tol bres) (fun j => iqrSigma (bres j)) (fun s => decide (s = 0))
      (fun j b => bres j (e b)) b).Perm (List.ofFn fun b => maxT (cleanCols tol bres) (fun j => iqrSigma (bres j))
      (fun s => decide (s = 0)) bres b) :=
    Equiv.Perm.ofFn_comp_perm e (fun b => maxT (cleanCols tol bres) (fun j => iqrSigma (bres j))
      (fun s => decide (s = 0)) bres b)
  have hp2 := hperm.filterMap id
  rw [percentile_perm hp2]
  have : ∀ {l l' : List K}, l.Perm l' → (l = [] ↔ l' = []) := by
    intro l l' h
    constructor
    · rintro rfl; exact h.symm.eq_nil
    · rintro rfl; exact h.eq_nil
  simp only [this hp2]

/-- C132: a band for a sub-collection of cells (in any order, with repetitions) is never wider. -/
theorem C132_monotone {tol alpha c c' : K} (h0 : 0 ≤ alpha) (h1 : alpha ≤ 1) (bres : κ → Fin B → K) (f : κ' → κ)
    (h : mbootCrit tol alpha bres = some c) (h' : mbootCrit tol alpha (fun j => bres (f j)) = some c') : c' ≤ c := by
  obtain ⟨hB, _, _, rfl⟩ := critWith_some h
  obtain ⟨_, _, _, rfl⟩ := critWith_some h'
  apply percentile_mono _ (ofFn_ne_nil hB _) (by linarith) (by linarith)
  rw [List.forall₂_iff_get]
  refine ⟨by simp, ?_⟩
  intro i hi hi'
  simp only [List.get_eq_getElem, List.getElem_ofFn]
  rw [fold_max_le_iff _ _ _ (fold_nonneg _ _)]
  intro j hj
  rw [Finset.le_fold_max]
  exact Or.inr ⟨f j, mem_cleanCols.mpr (show nondegenerate tol (bres (f j)) = true from
          (mem_cleanCols (bres := fun j => bres (f j))).mp hj), le_rfl⟩

/-- C133: cells without variation (universal-base reference periods, cells that are all zero) do not influence the band of
the others, nor does the order of the columns: only the set of columns above the cut-off counts. -/
theorem C133_degenerate_columns_ignored (tol alpha : K) (bres : κ → Fin B → K) (f : κ' → κ)
    (hf : ∀ j, nondegenerate tol (bres j) = true → ∃ j', f j' = j) :
    mbootCrit tol alpha (fun j => bres (f j)) = mbootCrit tol alpha bres ∧
    mbootDddCrit tol alpha (fun j => bres (f j)) = mbootDddCrit tol alpha bres := by
  have key : ∀ bad : K → Bool, critWith bad tol alpha (fun j => bres (f j)) = critWith bad tol alpha bres := by
    intro bad
    have hfold : ∀ b, ((cleanCols tol fun j => bres (f j)).fold max 0
        fun j => |bres (f j) b / iqrSigma (bres (f j))|) =
        (cleanCols tol bres).fold max 0 fun j => |bres j b / iqrSigma (bres j)| := by
      intro b
      apply le_antisymm
      · rw [fold_max_le_iff _ _ _ (fold_nonneg _ _)]
        intro j hj
        rw [Finset.le_fold_max]
        exact Or.inr ⟨f j, mem_cleanCols.mpr (show nondegenerate tol (bres (f j)) = true from
          (mem_cleanCols (bres := fun j => bres (f j))).mp hj), le_rfl⟩
      · rw [fold_max_le_iff _ _ _ (fold_nonneg _ _)]
        intro j hj
        obtain ⟨j', rfl⟩ := hf j (mem_cleanCols.mp hj)
        rw [Finset.le_fold_max]
        exact Or.inr ⟨j', mem_cleanCols.mpr (mem_cleanCols.mp hj), le_rfl⟩
    cases h : critWith bad tol alpha bres with
    | some c =>
      obtain ⟨hB, ⟨j, hj⟩, hbad, rfl⟩ := critWith_some h
      obtain ⟨j', rfl⟩ := hf j hj
      rw [critWith_eq hB ⟨j', hj⟩ (fun j hj => hbad (f j) hj)]
      simp only [hfold]
    | none =>
      rcases Nat.eq_zero_or_pos B with hB | hB
      · cases hx : critWith bad tol alpha (fun j => bres (f j)) with
        | none => rfl
        | some c => have := (critWith_some hx).1; omega
      · rw [critWith_none hB] at h ⊢
        rcases h with h | ⟨j, hj, hb⟩
        · exact Or.inl fun j => h (f j)
        · obtain ⟨j', rfl⟩ := hf j hj
          exact Or.inr ⟨j', hj, hb⟩
  exact ⟨key _, key _⟩

/-- C133: exactly when a simultaneous critical value is missing. -/
theorem C133_missing_iff (tol alpha : K) (bres : κ → Fin B → K) (hB : 0 < B) :
    mbootCrit tol alpha bres = none ↔ (∀ j, ∑ b, bres j b ^ 2 ≤ tol) ∨
      ∃ j, tol < ∑ b, bres j b ^ 2 ∧
        percentile (3 / 4) (List.ofFn (bres j)) = percentile (1 / 4) (List.ofFn (bres j)) := by
  have h := critWith_none (bad := fun s : K => decide (s = 0)) (tol := tol) (alpha := alpha) (bres := bres) hB
  unfold mbootCrit
  rw [h]
  have e1 : ∀ j, (nondegenerate tol (bres j) = false ↔ ∑ b, bres j b ^ 2 ≤ tol) := by
    intro j; rw [← Bool.not_eq_true, nondegenerate_iff, not_lt]
  have e2 : ∀ j, (decide (iqrSigma (bres j) = 0) = true ↔
      percentile (3 / 4) (List.ofFn (bres j)) = percentile (1 / 4) (List.ofFn (bres j))) := by
    intro j
    rw [decide_eq_true_eq, iqrSigma, div_eq_zero_iff, sub_eq_zero]
    simp [normIqr_pos.ne']
  simp only [e1, e2, nondegenerate_iff]

/-- C133: the same for the triple-difference bootstrap, where a spread up to the tolerance already counts as none. -/
theorem C133_missing_iff_ddd (tol alpha : K) (bres : κ → Fin B → K) (hB : 0 < B) :
    mbootDddCrit tol alpha bres = none ↔ (∀ j, ∑ b, bres j b ^ 2 ≤ tol) ∨
      ∃ j, tol < ∑ b, bres j b ^ 2 ∧
        percentile (3 / 4) (List.ofFn (bres j)) - percentile (1 / 4) (List.ofFn (bres j)) ≤ tol * 1.3489795 := by
  have h := critWith_none (bad := fun s : K => decide (s ≤ tol)) (tol := tol) (alpha := alpha) (bres := bres) hB
  unfold mbootDddCrit
  rw [h]
  have e1 : ∀ j, (nondegenerate tol (bres j) = false ↔ ∑ b, bres j b ^ 2 ≤ tol) := by
    intro j; rw [← Bool.not_eq_true, nondegenerate_iff, not_lt]
  have hn : (1.3489795 : K) = normIqr := by unfold normIqr; norm_num
  have e2 : ∀ j, (decide (iqrSigma (bres j) ≤ tol) = true ↔
      percentile (3 / 4) (List.ofFn (bres j)) - percentile (1 / 4) (List.ofFn (bres j)) ≤ tol * 1.3489795) := by
    intro j
    rw [decide_eq_true_eq, iqrSigma, div_le_iff₀ normIqr_pos, hn]
  simp only [e1, e2, nondegenerate_iff]

/-- C133 (Violated): one cell whose draws vary but have equal quartiles removes the simultaneous critical value of every
other cell; `att_gt` then reports no critical value at all, the aggregations fall back to the pointwise one. -/
theorem C133_one_cell_spoils_violated (tol alpha z : K) (bres : κ → Fin B → K) (j : κ)
    (hv : tol < ∑ b, bres j b ^ 2)
    (hq : percentile (3 / 4) (List.ofFn (bres j)) = percentile (1 / 4) (List.ofFn (bres j))) :
    critAttGt true true z (mbootCrit tol alpha bres) = none ∧ critAggte true z (mbootCrit tol alpha bres) = z := by
  have hn : mbootCrit tol alpha bres = none := by
    rcases Nat.eq_zero_or_pos B with h | hB
    · cases hx : mbootCrit tol alpha bres with
      | none => rfl
      | some c => have := (critWith_some hx).1; omega
    · exact (C133_missing_iff tol alpha bres hB).mpr (Or.inr ⟨j, hv, hq⟩)
  rw [hn]
  exact ⟨rfl, rfl⟩

end

end Verif.Boot
