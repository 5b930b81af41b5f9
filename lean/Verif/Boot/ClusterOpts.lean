import Verif.Boot.Props
import Mathlib.Data.Set.Finite.Range
import Mathlib.Data.Fintype.Sets
import Mathlib.Tactic.Ring
import Mathlib.Tactic.NormNum

/-!
# Clustering options of `att_gt` and `aggte`

Models the treatment of `clustervars` from validation (`moderndid/core/preprocess/validators.py:177-184`) through
`moderndid/did/att_gt.py:406-433` and `moderndid/did/compute_aggte.py:97-100,868-891` to the clusters handed to `mboot`
(`moderndid/did/mboot.py:73-92`).  Entries of a column are represented by the text `cast(str)` gives; the integer codes of
`att_gt.py:422-424` are an injective renaming of the combined texts, so that the texts themselves are used as labels.
-/

set_option linter.unusedSectionVars false
set_option linter.unusedSimpArgs false

namespace Verif.Boot

open Classical

/-- The entries of one unit in `time_invariant_data`: column name to text. -/
abbrev UnitText := String → List Char

/-- `cluster_data[v1].cast(str) + "_" + cluster_data[v2].cast(str)`, `att_gt.py:421`. -/
def combineText (a b : List Char) : List Char := a ++ '_' :: b

/-- `ClusterValidator`: at most one variable besides the unit identifier, `validators.py:180-184`. -/
def clusterAccepted (idname : String) (vars : List String) : Bool := decide ((vars.filter fun v => decide (v ≠ idname)).length ≤ 1)

/-- The cluster label of a unit, `att_gt.py:406-424`: `error` is the `ValueError` for more than two variables, `ok none` no clustering. -/
def attGtLabel (boot : Bool) (vars : List String) (row : UnitText) : Except String (Option (List Char)) :=
  if boot = false then .ok none
  else match vars with
    | [] => .ok none
    | [v] => .ok (some (row v))
    | [v, w] => .ok (some (combineText (row v) (row w)))
    | _ => .error "Can cluster on at most 2 variables."

/-- The cluster label of a unit in `aggte`, `compute_aggte.py:868-880`: the variable is never looked up. -/
def aggteLabel (boot : Bool) (vars : List String) (_ : UnitText) : Except String (Option (List Char)) :=
  if boot = false then .ok none
  else if 1 < vars.length then .error "Clustering on multiple variables is not supported yet."
  else .ok none

/-- The variance over the multipliers of a bootstrap draw of the estimate when units carry the given labels: one multiplier per different
label, applied to the mean influence of the units with that label (`mboot.py:80-92`). -/
noncomputable def labelVariance {n : ℕ} (lab : Fin n → List Char) (psi : Fin n → ℝ) : ℝ :=
  expect (ι := Set.range lab) fun b => drawMean (clMean (fun i => (⟨lab i, Set.mem_range_self i⟩ : Set.range lab)) psi) b ^ 2

/-- The variance without clusters: one multiplier per unit. -/
noncomputable def unitVariance {n : ℕ} (psi : Fin n → ℝ) : ℝ := expect (ι := Fin n) fun b => drawMean psi b ^ 2

/-! ## Lemmas -/

theorem combine_left_inj {a b c d : List Char} (ha : '_' ∉ a) (hc : '_' ∉ c) (h : combineText a b = combineText c d) : a = c := by
  unfold combineText at h
  induction a generalizing c with
  | nil =>
    cases c with
    | nil => rfl
    | cons x xs =>
      simp only [List.nil_append, List.cons_append, List.cons.injEq] at h
      exact absurd (by rw [← h.1]; simp) hc
  | cons y ys ih =>
    cases c with
    | nil =>
      simp only [List.nil_append, List.cons_append, List.cons.injEq] at h
      exact absurd (by rw [h.1]; simp) ha
    | cons x xs =>
      simp only [List.cons_append, List.cons.injEq] at h
      rw [h.1, ih (fun hm => ha (List.mem_cons_of_mem _ hm)) (fun hm => hc (List.mem_cons_of_mem _ hm)) h.2]

theorem combine_right_inj {a b c d : List Char} (hb : '_' ∉ b) (hd : '_' ∉ d) (h : combineText a b = combineText c d) : b = d := by
  have h2 : combineText b.reverse a.reverse = combineText d.reverse c.reverse := by
    have := congrArg List.reverse h
    unfold combineText at this ⊢
    simpa using this
  have := combine_left_inj (by simpa using hb) (by simpa using hd) h2
  exact List.reverse_injective this

theorem labelVariance_sum {n : ℕ} (lab : Fin n → List Char) (psi : Fin n → ℝ) :
    labelVariance lab psi = (∑ c : Set.range lab, ((∑ i with lab i = c, psi i) / ((Finset.univ.filter fun i => lab i = c).card : ℝ)) ^ 2) /
      (Fintype.card (Set.range lab) : ℝ) ^ 2 := by
  unfold labelVariance
  rw [(C77_draw_variance _).2]
  congr 1
  refine Finset.sum_congr rfl fun c _ => ?_
  unfold clMean
  simp only [Subtype.ext_iff]

/-! ## C231 -/

/-- **C231.**  Only the partition of the units matters: two cluster variables that group the units alike give draws with the same variance. -/
theorem C231_partition {n : ℕ} (lab lab' : Fin n → List Char) (h : ∀ i j, lab i = lab j ↔ lab' i = lab' j) (psi : Fin n → ℝ) :
    labelVariance lab psi = labelVariance lab' psi := by
  let f : Set.range lab → Set.range lab' := fun c => ⟨lab' (Set.mem_range.1 c.2).choose, Set.mem_range_self _⟩
  have hf : ∀ i, f ⟨lab i, Set.mem_range_self i⟩ = ⟨lab' i, Set.mem_range_self i⟩ := by
    intro i
    apply Subtype.ext
    show lab' (Exists.choose _) = lab' i
    exact (h _ _).1 (Exists.choose_spec (⟨i, rfl⟩ : ∃ y, lab y = lab i))
  have hbij : Function.Bijective f := by
    constructor
    · rintro ⟨_, i, rfl⟩ ⟨_, j, rfl⟩ hij
      rw [hf, hf] at hij
      exact Subtype.ext ((h i j).2 (congrArg Subtype.val hij))
    · rintro ⟨_, i, rfl⟩
      exact ⟨⟨lab i, Set.mem_range_self i⟩, hf i⟩
  rw [labelVariance_sum, labelVariance_sum, Fintype.card_of_bijective hbij]
  congr 1
  refine Fintype.sum_bijective f hbij _ _ fun c => ?_
  obtain ⟨_, i, rfl⟩ := c
  rw [hf]
  have : (Finset.univ.filter fun j => lab j = lab i) = Finset.univ.filter fun j => lab' j = lab' i :=
    Finset.filter_congr fun j _ => h j i
  simp only [this]

/-- **C231.**  With one cluster variable (not the identifier) whose clusters have equal size, the draws of `att_gt` have the cluster-robust
variance. -/
theorem C231_one_variable {n : ℕ} (rows : Fin n → UnitText) (idname v : String) (psi : Fin n → ℝ) (m : ℕ)
    (hm : ∀ i, (Finset.univ.filter fun j => rows j v = rows i v).card = m) :
    clusterAccepted idname [v] = true ∧
    ∃ lab : Fin n → List Char, (∀ i, attGtLabel true [v] (rows i) = .ok (some (lab i))) ∧
      labelVariance lab psi = (∑ c : Set.range fun i => rows i v, (∑ i with rows i v = c, psi i) ^ 2) / (n : ℝ) ^ 2 := by
  refine ⟨?_, fun i => rows i v, fun i => rfl, ?_⟩
  · unfold clusterAccepted
    rw [decide_eq_true_eq]
    exact (List.length_filter_le _ _)
  · unfold labelVariance
    rw [C77_cluster_equal_sizes _ psi m, Fintype.card_fin]
    · simp only [Subtype.ext_iff]
    · rintro ⟨_, i, rfl⟩
      simp only [Subtype.ext_iff]
      exact hm i

/-- **C231.**  `att_gt` with the bootstrap accepts exactly the specifications with at most two entries of which at most one is not the
identifier. -/
theorem C231_accepted (idname : String) (vars : List String) (row : UnitText) :
    (clusterAccepted idname vars = true ∧ ∃ l, attGtLabel true vars row = .ok l) ↔
      vars.length ≤ 2 ∧ (vars.filter fun v => decide (v ≠ idname)).length ≤ 1 := by
  have hl : (∃ l, attGtLabel true vars row = .ok l) ↔ vars.length ≤ 2 := by
    rcases vars with _ | ⟨a, _ | ⟨b, _ | ⟨c, t⟩⟩⟩
    · exact ⟨fun _ => by simp, fun _ => ⟨_, rfl⟩⟩
    · exact ⟨fun _ => by simp, fun _ => ⟨_, rfl⟩⟩
    · exact ⟨fun _ => by simp, fun _ => ⟨_, rfl⟩⟩
    · constructor
      · rintro ⟨l, hl⟩
        cases hl
      · intro h
        simp only [List.length_cons] at h
        omega
  rw [hl]
  unfold clusterAccepted
  rw [decide_eq_true_eq, and_comm]

/-- **C231 (violated).**  "At most two variables, one of which must be the identifier": the documented way to cluster on a second variable is
accepted, but every unit is then its own cluster and the variance of the draws is that without any clustering, whatever the second variable. -/
theorem C231_two_variables_violated {n : ℕ} (rows : Fin n → UnitText) (idname v : String)
    (hid : ∀ i j, rows i idname = rows j idname → i = j) (hno : ∀ i, '_' ∉ rows i idname) (psi : Fin n → ℝ) (vars : List String)
    (hv : vars = [idname, v] ∨ vars = [v, idname]) :
    clusterAccepted idname vars = true ∧
    ∃ lab : Fin n → List Char, (∀ i, attGtLabel true vars (rows i) = .ok (some (lab i))) ∧ labelVariance lab psi = unitVariance psi := by
  have hvar : ∀ lab : Fin n → List Char, Function.Injective lab → labelVariance lab psi = unitVariance psi := by
    intro lab hinj
    rw [labelVariance_sum]
    unfold unitVariance
    rw [(C77_draw_variance psi).2]
    have hb : Function.Bijective fun i => (⟨lab i, Set.mem_range_self i⟩ : Set.range lab) :=
      ⟨fun i j hij => hinj (Subtype.ext_iff.1 hij), by rintro ⟨_, i, rfl⟩; exact ⟨i, rfl⟩⟩
    rw [← Fintype.card_of_bijective hb]
    congr 1
    refine (Fintype.sum_bijective _ hb _ _ fun i => ?_).symm
    have : (Finset.univ.filter fun j => lab j = lab i) = {i} := by
      ext j
      simp only [Finset.mem_filter, Finset.mem_univ, true_and, Finset.mem_singleton]
      exact hinj.eq_iff
    simp only [this, Finset.sum_singleton, Finset.card_singleton, Nat.cast_one, div_one]
  rcases hv with rfl | rfl
  · refine ⟨?_, fun i => combineText (rows i idname) (rows i v), fun i => rfl,
      hvar _ fun i j h => hid i j (combine_left_inj (hno i) (hno j) h)⟩
    unfold clusterAccepted
    rw [decide_eq_true_eq, List.filter_cons_of_neg (by simp)]
    exact List.length_filter_le _ _
  · refine ⟨?_, fun i => combineText (rows i v) (rows i idname), fun i => rfl,
      hvar _ fun i j h => hid i j (combine_right_inj (hno i) (hno j) h)⟩
    unfold clusterAccepted
    rw [decide_eq_true_eq]
    by_cases h : v ≠ idname
    · rw [List.filter_cons_of_pos (by simpa using h), List.filter_cons_of_neg (by simp)]; simp
    · rw [List.filter_cons_of_neg (by simpa using h), List.filter_cons_of_neg (by simp)]; simp

/-- **C231 (violated).**  Combined labels are not unique: texts containing the separator merge different pairs. -/
theorem C231_collision_violated (a b c : List Char) : combineText (combineText a b) c = combineText a (combineText b c) := by
  unfold combineText
  simp

/-- **C231 (violated).**  `aggte` never clusters: with two variables (those an accepted call of `att_gt` stores in its result) it raises, with
one it uses one multiplier per unit. -/
theorem C231_aggte_violated (vars : List String) (row : UnitText) :
    aggteLabel true vars row = if 2 ≤ vars.length then .error "Clustering on multiple variables is not supported yet." else .ok none := by
  unfold aggteLabel
  rw [if_neg (by decide)]
  rfl

/-! ## Non-vacuity -/

/-- Four units `0..3`; units `0, 1` are in state `x`, units `2, 3` in state `y`. -/
def exUnits (i : Fin 4) : UnitText := fun c => if c = "id" then (toString i.val).toList else if i.val < 2 then ['x'] else ['y']

/-- Influence values with common shocks to states. -/
def exShock : Fin 4 → ℝ := ![1, 1, -1, -1]

example : (∀ i j, exUnits i "id" = exUnits j "id" → i = j) ∧ (∀ i, '_' ∉ exUnits i "id") ∧
    (∀ i, (Finset.univ.filter fun j => exUnits j "state" = exUnits i "state").card = 2) := by
  refine ⟨by decide +kernel, by decide +kernel, ?_⟩
  intro i
  have : ∀ i : Fin 4, (Finset.univ.filter fun j : Fin 4 => decide (exUnits j "state" = exUnits i "state") = true).card = 2 := by decide +kernel
  rw [← this i]
  congr 1
  ext j
  simp

/-- Naming the identifier as well gives the variance `1/4`; clustered by state it is `(2² + 2²) / 16 = 1/2`. -/
example : unitVariance exShock = 1 / 4 := by
  unfold unitVariance
  rw [(C77_draw_variance _).2]
  simp [exShock, Fin.sum_univ_four]
  norm_num

example : combineText "1_2".toList "3".toList = combineText "1".toList "2_3".toList := by decide

example : aggteLabel true ["id", "state"] (exUnits 0) ≠ .ok none := by
  rw [C231_aggte_violated]
  simp

end Verif.Boot
