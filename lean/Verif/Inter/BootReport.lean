import Verif.Inter.VarCluster
import Verif.Report.Props
import Mathlib.Algebra.Order.Floor.Ring
import Mathlib.Data.Real.Sqrt
import Mathlib.Algebra.BigOperators.Group.List.Basic

set_option linter.unusedSectionVars false
set_option linter.unusedSimpArgs false

/-!
# `did_multiplegt(boot=True)`: what the bootstrap reaches, and what is printed (C267)

`didinter/compute_did_multiplegt.py:81-166`, `didinter/bootstrap.py:84-109`, `core/numba_utils.py:86-111` and `didinter/format.py`.  Numbers
are reals; a float that may be NaN is an `Option`.
-/

namespace Verif.Inter.BootReport

open Verif.Report Finset

/-! ## Model -/

/-- The non-NaN entries. -/
def valid (col : List (Option ℝ)) : List ℝ := col.filterMap id

/-- One column of `compute_column_std`, `numba_utils.py:90-111`; the same as `np.std(·, ddof=1)` of the valid entries, `bootstrap.py:102-103`. -/
noncomputable def columnStd (col : List (Option ℝ)) : Option ℝ :=
  let xs := valid col
  if xs.length = 0 then none
  else
    let mean := xs.sum / xs.length
    let ss := (xs.map fun x => (x - mean) * (x - mean)).sum
    if 1 < xs.length then some (Real.sqrt (ss / ((xs.length : ℝ) - 1))) else none

/-- The dictionary returned by `_compute_did_effects` for the `m` horizons, `compute_did_multiplegt.py:520-571`: estimates, standard errors,
unnormalised estimates with their influence functions, weighted numbers of switchers, doses and the covariance matrix. -/
structure Horizons (ι : Type*) (m : ℕ) where
  est : Fin m → Option ℝ
  se : Fin m → Option ℝ
  unnorm : Fin m → Option ℝ
  ψ : Fin m → Option (ι → ℝ)
  N : Fin m → ℝ
  delta : Fin m → ℝ
  vcov : Fin m → Fin m → ℝ

/-- The replicates of `cluster_bootstrap`, `bootstrap.py:71-92`. -/
structure Replicates (m p : ℕ) where
  effects : List (Fin m → Option ℝ)
  placebos : List (Fin p → Option ℝ)
  ate : List (Option ℝ)

/-- `BootstrapResult`, `bootstrap.py:94-109`. -/
structure BootResult (m p : ℕ) where
  effectsSe : Fin m → Option ℝ
  placebosSe : Fin p → Option ℝ
  ateSe : Option ℝ

/-- `bootstrap.py:94-109`. -/
noncomputable def bootResult {m p : ℕ} (B : Replicates m p) : BootResult m p where
  effectsSe l := columnStd (B.effects.map fun r => r l)
  placebosSe l := columnStd (B.placebos.map fun r => r l)
  ateSe := columnStd B.ate

/-- An estimate with its standard error and interval. -/
structure Line where
  est : Option ℝ
  se : Option ℝ
  ci : Option (ℝ × ℝ)

/-- `estimate ∓ z_crit * std_error`, `compute_did_multiplegt.py:118-119, 130-131, 629-630`: NaN as soon as one of them is. -/
noncomputable def line (z : ℝ) (e s : Option ℝ) : Line :=
  ⟨e, s, match e, s with | some x, some y => some (x - z * y, x + z * y) | _, _ => none⟩

/-- The reported result.  `test` stands for the Wald statistics, which are functions of estimates and covariance matrix (`_test_effects_equality`,
`compute_joint_test`). -/
structure Result (m p : ℕ) (τ : Type*) where
  effects : Fin m → Line
  placebos : Fin p → Line
  ate : Option Line
  equal : τ
  joint : τ

variable {ι : Type*} [Fintype ι] {m p : ℕ} {τ : Type*}

/-- First dose of `_compute_ate`, `compute_did_multiplegt.py:589`. -/
noncomputable def firstDose (H : Horizons ι m) : ℝ :=
  if hm : 0 < m then (if H.delta ⟨0, hm⟩ = 0 then 1 else H.delta ⟨0, hm⟩) else 1

/-- The standard error of `_compute_ate`, `compute_did_multiplegt.py:592-620`: from the influence functions if every horizon has one, else
from the standard errors of the horizons (NaN if one of those that are used is). -/
noncomputable def ateSe (H : Horizons ι m) : Option ℝ :=
  if (∀ l, (H.ψ l).isSome) ∨ ∀ l, 0 < H.N l → (H.se l).isSome then
    ateSE Real.sqrt H.ψ H.N (fun l => (H.se l).getD 0) (firstDose H)
  else none

/-- `_compute_ate`, `compute_did_multiplegt.py:574-633`. -/
noncomputable def ateLine (z : ℝ) (H : Horizons ι m) : Option Line :=
  (ate H.unnorm H.N H.delta).map fun a => line z (some a) (ateSe H)

/-- `compute_did_multiplegt` from the analytical results on, lines 48-50 and 81-134: with bootstrap the standard errors of the horizons are
overwritten, then the average total effect, tests and intervals are computed. -/
noncomputable def assemble (ci : ℝ) (testE : (Fin m → Option ℝ) → (Fin m → Fin m → ℝ) → τ)
    (testP : (Fin p → Option ℝ) → (Fin p → Fin p → ℝ) → τ) (E : Horizons ι m) (P : Horizons ι p) (boot : Option (Replicates m p)) :
    Result m p τ :=
  let z := zcrit (1 - ci / 100)
  let E' : Horizons ι m := match boot with | some B => { E with se := (bootResult B).effectsSe } | none => E
  let P' : Horizons ι p := match boot with | some B => { P with se := (bootResult B).placebosSe } | none => P
  ⟨fun l => line z (E'.est l) (E'.se l), fun l => line z (P'.est l) (P'.se l), ateLine z E', testE E'.est E'.vcov, testP P'.est P'.vcov⟩

/-- The printed options of `did_multiplegt`. -/
structure Call where
  ci : ℝ
  boot : Bool
  cluster : Option String
  controls : List String

/-- `estimation_params`, `compute_did_multiplegt.py:151-165`, restricted to printed keys: `cluster`, `xformla`, and whatever is found under
the key `controls` (nothing). -/
structure Params where
  cluster : Option String
  xformla : List String
  controls : Option (List String)

/-- `compute_did_multiplegt.py:151-165`. -/
def params (c : Call) : Params := ⟨c.cluster, c.controls, none⟩

/-- Printed lines, `didinter/format.py:22, 108-110, 117-122`: level, covariates, `some c` for "Clustered standard errors: c" and `none` for
"Standard errors: Analytical". -/
structure Printed where
  level : ℤ
  controls : List String
  se : Option String

/-- `format_didinter_result`, `didinter/format.py:22, 108-110, 117-122`. -/
noncomputable def printed (c : Call) : Printed := ⟨⌊c.ci⌋, (params c).controls.getD [], (params c).cluster⟩

/-! ## Specification -/

/-- `s` is the sample standard deviation of `xs` (divisor: number of entries minus one). -/
def SampleSd (xs : List ℝ) (s : ℝ) : Prop :=
  0 ≤ s ∧ ∃ μ, xs.length * μ = xs.sum ∧ ((xs.length : ℝ) - 1) * s ^ 2 = (xs.map fun x => (x - μ) ^ 2).sum

theorem sq_sum_nonneg (xs : List ℝ) (μ : ℝ) : 0 ≤ (xs.map fun x => (x - μ) * (x - μ)).sum := by
  apply List.sum_nonneg
  intro y hy
  obtain ⟨x, -, rfl⟩ := List.mem_map.mp hy
  exact mul_self_nonneg _

theorem columnStd_spec (col : List (Option ℝ)) :
    (2 ≤ (valid col).length → ∃ s, columnStd col = some s ∧ SampleSd (valid col) s) ∧ ((valid col).length < 2 → columnStd col = none) := by
  constructor
  · intro h
    have h0 : (valid col).length ≠ 0 := by omega
    have h1 : 1 < (valid col).length := by omega
    have hr : (0 : ℝ) < ((valid col).length : ℝ) - 1 := by
      have : (1 : ℝ) < (valid col).length := by exact_mod_cast h1
      linarith
    refine ⟨Real.sqrt (((valid col).map fun x => (x - (valid col).sum / (valid col).length) * (x - (valid col).sum / (valid col).length)).sum /
      (((valid col).length : ℝ) - 1)), by simp only [columnStd, if_neg h0, if_pos h1], Real.sqrt_nonneg _, (valid col).sum / (valid col).length, ?_, ?_⟩
    · have : ((valid col).length : ℝ) ≠ 0 := by exact_mod_cast h0
      field_simp
    · rw [Real.sq_sqrt (div_nonneg (sq_sum_nonneg _ _) hr.le)]
      simp only [sq]
      field_simp
  · intro h
    have h1 : ¬ 1 < (valid col).length := by omega
    simp [columnStd, h1]

/-! ## C267 -/

/-- Spec: the replicates that exist. -/
def present : List (Option ℝ) → List ℝ
  | [] => []
  | none :: l => present l
  | some x :: l => x :: present l

theorem valid_present (col : List (Option ℝ)) : valid col = present col := by
  induction col with
  | nil => rfl
  | cons x l ih =>
    cases x with
    | none => exact ih
    | some x => exact congrArg (x :: ·) ih

/-- **C267.**  With bootstrap, the standard error of every effect and placebo is the sample standard deviation of its replicates that exist
(missing if there are fewer than two), and its interval covers with probability `ci_level` percent if the estimate is normal with that
standard error; without bootstrap standard errors are the analytical ones. -/
theorem C267_horizons (ci : ℝ) (h0 : 0 < ci) (h1 : ci < 100) (testE : (Fin m → Option ℝ) → (Fin m → Fin m → ℝ) → τ)
    (testP : (Fin p → Option ℝ) → (Fin p → Fin p → ℝ) → τ) (E : Horizons ι m) (P : Horizons ι p) (B : Replicates m p) :
    let R := assemble ci testE testP E P (some B)
    (∀ l, (2 ≤ (present (B.effects.map fun r => r l)).length →
        ∃ s, (R.effects l).se = some s ∧ SampleSd (present (B.effects.map fun r => r l)) s) ∧
      ((present (B.effects.map fun r => r l)).length < 2 → (R.effects l).se = none)) ∧
    (∀ l, (2 ≤ (present (B.placebos.map fun r => r l)).length →
        ∃ s, (R.placebos l).se = some s ∧ SampleSd (present (B.placebos.map fun r => r l)) s) ∧
      ((present (B.placebos.map fun r => r l)).length < 2 → (R.placebos l).se = none)) ∧
    (∀ l, ((assemble ci testE testP E P none).effects l).se = E.se l) ∧
    ∀ l s, (R.effects l).se = some s → 0 < s → ∀ θ,
      coverage θ s (fun x => ((assemble ci testE testP { E with est := fun _ => some x } P (some B)).effects l).ci.getD (0, 0)) = ci / 100 := by
  refine ⟨fun l => valid_present _ ▸ columnStd_spec _, fun l => valid_present _ ▸ columnStd_spec _, fun l => rfl, ?_⟩
  intro l s hs hpos θ
  have hs' : (bootResult B).effectsSe l = some s := hs
  have : (fun x : ℝ => ((assemble ci testE testP { E with est := fun _ => some x } P (some B)).effects l).ci.getD (0, 0)) =
      fun x => rowInterval (zcrit (1 - ci / 100)) x s := by
    funext x
    simp only [assemble, line, hs', Option.getD_some, rowInterval]
  rw [this, coverage_z θ s (1 - ci / 100) (by linarith) (by linarith) hpos]
  ring

/-- Two horizons, three replicates, one of them missing at the second horizon. -/
noncomputable def exReps : Replicates 2 0 where
  effects := [![some 1, some 5], ![some 3, none], ![some 2, some 7]]
  placebos := []
  ate := []

example : present (exReps.effects.map fun r => r 0) = [1, 3, 2] ∧ present (exReps.effects.map fun r => r 1) = [5, 7] := by
  constructor <;> simp [present, exReps]

/-- **C267.**  (Violated.)  The bootstrap does not reach the average total effect, although its replicates are computed, nor the tests: if every
horizon has an influence function, estimate, standard error and interval of the average total effect, the test of equal effects and the
joint placebo test are those of the same call without bootstrap, whatever the replicates. -/
theorem C267_average_violated (ci : ℝ) (testE : (Fin m → Option ℝ) → (Fin m → Fin m → ℝ) → τ)
    (testP : (Fin p → Option ℝ) → (Fin p → Fin p → ℝ) → τ) (E : Horizons ι m) (P : Horizons ι p) (hψ : ∀ l, (E.ψ l).isSome)
    (B : Replicates m p) :
    (assemble ci testE testP E P (some B)).ate = (assemble ci testE testP E P none).ate ∧
    (assemble ci testE testP E P (some B)).equal = (assemble ci testE testP E P none).equal ∧
    (assemble ci testE testP E P (some B)).joint = (assemble ci testE testP E P none).joint := by
  refine ⟨?_, rfl, rfl⟩
  simp only [assemble, ateLine, ateSe, firstDose, ateSE, hψ, implies_true, true_or, if_true]

/-- One horizon, two units, analytical standard error. -/
noncomputable def exOneHorizon : Horizons (Fin 2) 1 where
  est := ![some 1]
  se := ![some (Real.sqrt 2 / 2)]
  unnorm := ![some 1]
  ψ := ![some ![1, -1]]
  N := ![1]
  delta := ![1]
  vcov := fun _ _ => 1

/-- No placebos. -/
def exNoPlacebo : Horizons (Fin 2) 0 where
  est := ![]
  se := ![]
  unnorm := ![]
  ψ := ![]
  N := ![]
  delta := ![]
  vcov := ![]

/-- **C267.**  (Violated.)  One effect and a switch by one unit: the average total effect *is* the effect, and both are reported with the same
estimate, but with different standard errors. -/
theorem C267_two_errors_violated :
    ∃ B : Replicates 1 0, ∃ a, (assemble 95 (fun _ _ => ()) (fun _ _ => ()) exOneHorizon exNoPlacebo (some B)).ate = some a ∧
      a.est = ((assemble 95 (fun _ _ => ()) (fun _ _ => ()) exOneHorizon exNoPlacebo (some B)).effects 0).est ∧
      a.se = some (Real.sqrt 2 / 2) ∧
      ((assemble 95 (fun _ _ => ()) (fun _ _ => ()) exOneHorizon exNoPlacebo (some B)).effects 0).se = some 0 := by
  have hN : (univ.filter fun l : Fin 1 => 0 < exOneHorizon.N l) = univ := by
    ext l; fin_cases l; simp [exOneHorizon]
  have hV : (univ.filter fun l : Fin 1 => (exOneHorizon.unnorm l).isSome = true ∧ 0 < exOneHorizon.N l) = univ := by
    ext l; fin_cases l; simp [exOneHorizon]
  have hne : (univ : Finset (Fin 1)) ≠ ∅ := by decide
  have hψ : ∀ l, (exOneHorizon.ψ l).isSome := by intro l; fin_cases l; rfl
  have hate : ate exOneHorizon.unnorm exOneHorizon.N exOneHorizon.delta = some 1 := by
    simp only [ate, hV, if_neg hne]
    simp [exOneHorizon]
  have hse : ateSe exOneHorizon = some (Real.sqrt 2 / 2) := by
    simp only [ateSe, ateSE, hψ, implies_true, true_or, if_true, hN, if_neg hne, firstDose]
    simp [exOneHorizon, Fin.sum_univ_two]
    norm_num
  refine ⟨⟨[![some 1], ![some 1]], [], []⟩, line (zcrit (1 - 95 / 100)) (some 1) (some (Real.sqrt 2 / 2)), ?_, ?_, rfl, ?_⟩
  · rw [(C267_average_violated 95 (fun _ _ => ()) (fun _ _ => ()) exOneHorizon exNoPlacebo hψ _).1]
    simp only [assemble, ateLine, hate, hse, Option.map_some]
  · simp [assemble, line, exOneHorizon]
  · simp [assemble, line, bootResult, columnStd, valid]

/-- **C267.**  A whole-number `ci_level` is printed as it is, and otherwise rounded down; the cluster variable is printed if there is one. -/
theorem C267_printed (c : Call) :
    (∀ n : ℤ, c.ci = n → (printed c).level = n) ∧ ((printed c).level : ℝ) ≤ c.ci ∧ c.ci < (printed c).level + 1 ∧
    (printed c).se = c.cluster := by
  refine ⟨?_, Int.floor_le _, Int.lt_floor_add_one _, rfl⟩
  intro n h
  simp [printed, h]

/-- **C267.**  (Violated.)  Without `cluster` standard errors are printed as analytical, also with bootstrap; covariates are never printed; a
99.5% interval is printed as 99%. -/
theorem C267_printed_violated :
    (∀ c : Call, c.boot = true → c.cluster = none → (printed c).se = none) ∧
    (∃ c : Call, c.boot = true ∧ (printed c).se = none ∧ c.controls = ["x"] ∧ (printed c).controls = [] ∧ c.ci = 99.5 ∧ (printed c).level = 99) ∧
    ∀ c d : Call, c.controls ≠ d.controls → (printed c).controls = (printed d).controls := by
  refine ⟨fun c _ h => h, ⟨⟨99.5, true, none, ["x"]⟩, rfl, rfl, rfl, rfl, rfl, ?_⟩, fun c d _ => rfl⟩
  show ⌊(99.5 : ℝ)⌋ = 99
  rw [Int.floor_eq_iff]
  norm_num

example : (printed ⟨95, true, some "state", []⟩).level = 95 := (C267_printed ⟨95, true, some "state", []⟩).1 95 (by norm_num)

end Verif.Inter.BootReport
