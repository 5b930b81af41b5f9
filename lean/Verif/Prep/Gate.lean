import Verif.Prep.Props
import Mathlib.Data.Finset.Prod
import Mathlib.Data.Rat.Floor
import Mathlib.Tactic.FieldSimp
import Mathlib.Tactic.Linarith

/-!
# C274: the sample-size gate at the end of `att_gt`'s preprocessing

Models `PreprocessDataBuilder._validate_transformed_data` (`core/preprocess/builders.py:160-206`) for `DIDConfig`: the
last check before estimation.  It refuses data without a treated cohort, warns about small cohorts and refuses a small
never-treated cohort when that is the comparison group.
-/

set_option linter.unusedSectionVars false
set_option linter.unusedSimpArgs false

namespace Verif.Prep

open Verif.Panel

variable {ι β : Type*}

/-- `self._data.group_by(gname).len()` for one cohort, `builders.py:182,185`: the number of its rows. -/
def cohortRows (df : List (Obs ι β)) (g : WithTop ℤ) : ℕ := (df.filter fun r => cohort r = g).length

/-- The column `size` of `gsize`, `builders.py:181-185`: rows over the number of periods in a panel, rows otherwise. -/
def gateSize (panel : Bool) (df : List (Obs ι β)) (g : WithTop ℤ) : ℚ :=
  if panel then (cohortRows df g : ℚ) / ((periodsOf df).length : ℚ) else (cohortRows df g : ℚ)

/-- `small_groups`, `builders.py:192-195`, with `reqsize = n_covs + 5`.  The order of `group_by` without
`maintain_order` is not defined; only membership is used below. -/
def smallGroups (panel : Bool) (nCovs : ℕ) (df : List (Obs ι β)) : List (WithTop ℤ) :=
  (df.map cohort).dedup.filter fun g => gateSize panel df g < (nCovs + 5 : ℕ)

/-- How the gate ends. -/
inductive Gate
  | noGroups
  | neverTooSmall
  | pass (warned : List (WithTop ℤ))
deriving DecidableEq

/-- `_validate_transformed_data` for `DIDConfig`, `builders.py:174-206`. -/
def gate (panel : Bool) (cg : ControlGroup) (nCovs : ℕ) (df : List (Obs ι β)) : Gate :=
  if (groupsOf df).length = 0 then .noGroups
  else
    let small := smallGroups panel nCovs df
    if small.length > 0 ∧ ⊤ ∈ small ∧ cg = .neverTreated then .neverTooSmall
    else .pass small

/-! ## Specification -/

/-- The units of a cohort, as a set of ids. -/
def UnitsOf (df : List (Obs ι β)) (g : WithTop ℤ) : Set ι := {u | ∃ r ∈ df, r.id = u ∧ cohort r = g}

/-- A treated cohort is present. -/
def HasTreated (df : List (Obs ι β)) : Prop := ∃ r ∈ df, cohort r ≠ ⊤

/-! ## Lemmas -/

theorem periodsOf_length (df : List (Obs ι β)) : (periodsOf df).length = ((df.map Row.t).toFinset).card := by
  rw [periodsOf, List.length_insertionSort, List.card_toFinset]

theorem unitsOf_coe [DecidableEq ι] (df : List (Obs ι β)) (g : WithTop ℤ) :
    UnitsOf df g = (((df.filter fun r => cohort r = g).map Row.id).toFinset : Finset ι) := by
  ext u
  simp only [UnitsOf, Set.mem_ofPred_eq, Finset.mem_coe, List.mem_toFinset, List.mem_map, List.mem_filter,
    decide_eq_true_eq]
  constructor
  · rintro ⟨r, hr, h1, h2⟩; exact ⟨r, ⟨hr, h2⟩, h1⟩
  · rintro ⟨r, ⟨hr, h2⟩, h1⟩; exact ⟨r, hr, h1, h2⟩

theorem unitsOf_ncard [DecidableEq ι] (df : List (Obs ι β)) (g : WithTop ℤ) :
    (UnitsOf df g).ncard = ((df.filter fun r => cohort r = g).map Row.id).toFinset.card := by
  rw [unitsOf_coe, Set.ncard_coe_finset]

/-- In a balanced duplicate-free panel with unit-constant cohorts a cohort has one row per unit and period. -/
theorem cohortRows_eq [DecidableEq ι] (df : List (Obs ι β)) (hnd : NoDuplicates df) (hb : Balanced df)
    (hcc : CohortConstant df) (g : WithTop ℤ) :
    cohortRows df g = (UnitsOf df g).ncard * (periodsOf df).length := by
  rw [unitsOf_ncard, periodsOf_length, ← Finset.card_product]
  set F := df.filter fun r => cohort r = g with hF
  have hn : (F.map fun r => (r.id, r.t)).Nodup := by
    rw [List.Nodup, List.pairwise_map]
    refine (hnd.sublist List.filter_sublist).imp ?_
    intro a b h hab
    rw [Prod.mk.injEq] at hab
    exact h hab
  have hl : cohortRows df g = (F.map fun r => (r.id, r.t)).toFinset.card := by
    rw [List.toFinset_card_of_nodup hn, List.length_map]; rfl
  rw [hl]
  congr 1
  ext ⟨u, t⟩
  simp only [List.mem_toFinset, List.mem_map, Finset.mem_product, Prod.mk.injEq, hF, List.mem_filter,
    decide_eq_true_eq]
  constructor
  · rintro ⟨r, ⟨hr, hg⟩, h1, h2⟩
    exact ⟨⟨r, ⟨hr, hg⟩, h1⟩, r, hr, h2⟩
  · rintro ⟨⟨r, ⟨hr, hg⟩, h1⟩, s, hs, h2⟩
    obtain ⟨q, hq, hq1, hq2⟩ := hb u ⟨r, hr, h1⟩ t ⟨s, hs, h2⟩
    exact ⟨q, ⟨hq, by rw [← hg]; exact hcc q hq r hr (hq1.trans h1.symm)⟩, hq1, hq2⟩

theorem mem_groupsOf {df : List (Obs ι β)} {g : ℤ} : g ∈ groupsOf df ↔ ∃ r ∈ df, cohort r = (g : WithTop ℤ) := by
  simp only [groupsOf, List.mem_insertionSort, List.mem_dedup, List.mem_filterMap, List.mem_map]
  constructor
  · rintro ⟨c, ⟨r, hr, rfl⟩, h⟩; exact ⟨r, hr, finitePart_eq_some.1 h⟩
  · rintro ⟨r, hr, h⟩; exact ⟨_, ⟨r, hr, rfl⟩, finitePart_eq_some.2 h⟩

theorem groupsOf_empty_iff {df : List (Obs ι β)} : (groupsOf df).length = 0 ↔ ¬ HasTreated df := by
  rw [List.length_eq_zero_iff, List.eq_nil_iff_forall_not_mem]
  constructor
  · rintro h ⟨r, hr, hc⟩
    obtain ⟨g, hg⟩ := WithTop.ne_top_iff_exists.1 hc
    exact h g (mem_groupsOf.2 ⟨r, hr, hg.symm⟩)
  · intro h g hg
    obtain ⟨r, hr, hc⟩ := mem_groupsOf.1 hg
    exact h ⟨r, hr, by rw [hc]; exact WithTop.coe_ne_top⟩

theorem mem_smallGroups {panel : Bool} {nCovs : ℕ} {df : List (Obs ι β)} {g : WithTop ℤ} :
    g ∈ smallGroups panel nCovs df ↔ (∃ r ∈ df, cohort r = g) ∧ gateSize panel df g < (nCovs + 5 : ℕ) := by
  simp only [smallGroups, List.mem_filter, List.mem_dedup, List.mem_map, decide_eq_true_eq]

theorem gate_pass_iff {panel : Bool} {cg : ControlGroup} {nCovs : ℕ} {df : List (Obs ι β)} :
    (∃ w, gate panel cg nCovs df = .pass w) ↔
      HasTreated df ∧ (cg = .neverTreated → ⊤ ∉ smallGroups panel nCovs df) := by
  unfold gate
  by_cases h0 : (groupsOf df).length = 0
  · rw [if_pos h0]
    have := groupsOf_empty_iff.1 h0
    constructor
    · rintro ⟨w, hw⟩; cases hw
    · rintro ⟨h, _⟩; exact absurd h this
  · rw [if_neg h0]
    have ht : HasTreated df := by by_contra h; exact h0 (groupsOf_empty_iff.2 h)
    dsimp only
    split_ifs with h
    · constructor
      · rintro ⟨w, hw⟩; cases hw
      · rintro ⟨_, h2⟩; exact absurd h.2.1 (h2 h.2.2)
    · refine ⟨fun _ => ⟨ht, fun hc hm => h ⟨List.length_pos_of_mem hm, hm, hc⟩⟩, fun _ => ⟨_, rfl⟩⟩

theorem gate_pass_eq {panel : Bool} {cg : ControlGroup} {nCovs : ℕ} {df : List (Obs ι β)} {w : List (WithTop ℤ)}
    (h : gate panel cg nCovs df = .pass w) : w = smallGroups panel nCovs df := by
  unfold gate at h
  dsimp only at h
  split_ifs at h
  exact (Gate.pass.inj h).symm

/-! ## C274 -/

/-- **C274, a cohort's size is its number of units.** In a balanced duplicate-free panel with unit-constant cohorts the
size the gate computes for a cohort that is present is exactly its number of units. -/
theorem C274_size_is_unit_count [DecidableEq ι] (df : List (Obs ι β)) (hnd : NoDuplicates df) (hb : Balanced df)
    (hcc : CohortConstant df) (g : WithTop ℤ) (hg : ∃ r ∈ df, cohort r = g) :
    gateSize true df g = ((UnitsOf df g).ncard : ℚ) := by
  have hp : ((periodsOf df).length : ℚ) ≠ 0 := by
    obtain ⟨r, hr, _⟩ := hg
    rw [periodsOf_length, Nat.cast_ne_zero, Finset.card_ne_zero]
    exact ⟨r.t, List.mem_toFinset.2 (List.mem_map.2 ⟨r, hr, rfl⟩)⟩
  rw [gateSize, if_pos rfl, cohortRows_eq df hnd hb hcc]
  push_cast
  field_simp

/-- **C274, what an accepted panel guarantees.** Balanced duplicate-free panel, unit-constant cohorts, any anticipation:
after preprocessing, the gate accepts exactly when some cohort is treated and, with never-treated controls, there are at
least `n_covs + 5` never-treated units (counting a last cohort that preprocessing relabelled); and the cohorts it warns
about are exactly those with fewer units than that. -/
theorem C274_accepts_iff [LinearOrder ι] (cg : ControlGroup) (a : ℤ) (df out : List (Obs ι β))
    (hnd : NoDuplicates df) (hbal : Balanced df) (hcc : CohortConstant df)
    (hout : pipeline cg a df = some out) (nCovs : ℕ) :
    ((∃ w, gate true cg nCovs out = .pass w) ↔
      (∃ r ∈ out, cohort r ≠ ⊤) ∧ (cg = .neverTreated → nCovs + 5 ≤ (UnitsOf out ⊤).ncard)) ∧
    ∀ w, gate true cg nCovs out = .pass w →
      ∀ g, g ∈ w ↔ (∃ r ∈ out, cohort r = g) ∧ (UnitsOf out g).ncard < nCovs + 5 := by
  obtain ⟨first, _, _, _, hb, hn, hc, _, h2⟩ := pipeline_balanced cg a df out hnd hbal hcc hout
  have hsmall : ∀ g, g ∈ smallGroups true nCovs out ↔
      (∃ r ∈ out, cohort r = g) ∧ (UnitsOf out g).ncard < nCovs + 5 := by
    intro g
    rw [mem_smallGroups]
    refine and_congr_right fun hg => ?_
    rw [C274_size_is_unit_count out hn hb hc g hg, Nat.cast_lt]
  constructor
  · rw [gate_pass_iff]
    refine and_congr_right fun _ => ?_
    refine forall_congr' fun hcg => ?_
    rw [hsmall, not_and_or]
    constructor
    · rintro (h | h)
      · exact absurd (h2 hcg) h
      · omega
    · intro h; right; omega
  · intro w hw g
    rw [gate_pass_eq hw]
    exact hsmall g

/-- Five never-treated units 10…14 and one unit treated in period 2, periods 1 and 2. -/
def exGate : List (Obs ℕ ℕ) :=
  [⟨1, 1, (2, 0)⟩, ⟨1, 2, (2, 0)⟩, ⟨10, 1, (0, 0)⟩, ⟨10, 2, (0, 0)⟩, ⟨11, 1, (0, 0)⟩, ⟨11, 2, (0, 0)⟩,
   ⟨12, 1, (0, 0)⟩, ⟨12, 2, (0, 0)⟩, ⟨13, 1, (0, 0)⟩, ⟨13, 2, (0, 0)⟩, ⟨14, 1, (0, 0)⟩, ⟨14, 2, (0, 0)⟩]

theorem exGate_pre : NoDuplicates exGate ∧ Balanced exGate ∧ CohortConstant exGate :=
  ⟨by unfold NoDuplicates; decide, by rw [← isBalanced_iff]; decide, by unfold CohortConstant; decide⟩

example : (pipeline .neverTreated 0 exGate).map (gate true .neverTreated 0) = some (.pass [2]) ∧
    (pipeline .neverTreated 0 exGate).map (gate true .neverTreated 1) = some .neverTooSmall ∧
    (pipeline .notYetTreated 0 exGate).map (gate true .notYetTreated 1) = some (.pass [2, ⊤]) := by
  decide +kernel

/-- **C274, more covariates never help.** Whatever the data and the data format, a call accepted with some number of
covariates is accepted with fewer. -/
theorem C274_antitone_in_covariates (panel : Bool) (cg : ControlGroup) (df : List (Obs ι β)) (m n : ℕ) (hmn : m ≤ n)
    (h : ∃ w, gate panel cg n df = .pass w) : ∃ w, gate panel cg m df = .pass w := by
  rw [gate_pass_iff] at h ⊢
  refine ⟨h.1, fun hc hm => h.2 hc ?_⟩
  rw [mem_smallGroups] at hm ⊢
  refine ⟨hm.1, hm.2.trans_le ?_⟩
  exact_mod_cast Nat.add_le_add_right hmn 5

example : ∃ w, gate true .neverTreated 0 [(⟨1, 1, (2, 0)⟩ : Obs ℕ ℕ)] = .pass w := ⟨[2], by decide +kernel⟩

/-- **C274, violated: an empty comparison group passes.** The gate looks for a *small* never-treated cohort, not for a
missing one: when the panel balancer drops every never-treated unit, `control_group='nevertreated'` is accepted with no
never-treated unit left (while a single one left would have been refused). -/
theorem C274_no_never_treated_violated :
    ∃ (df out : List (Obs ℕ ℕ)) (w : List (WithTop ℤ)), NoDuplicates df ∧ CohortConstant df ∧
      (∃ r ∈ df, cohort r = (0 : ℤ)) ∧
      pipeline .neverTreated 0 df = some out ∧ gate true .neverTreated 0 out = .pass w ∧ UnitsOf out ⊤ = ∅ := by
  refine ⟨[⟨1, 1, (2, 0)⟩, ⟨1, 2, (2, 0)⟩, ⟨2, 1, (0, 0)⟩], [⟨1, 1, (2, 0)⟩, ⟨1, 2, (2, 0)⟩], [2],
    by unfold NoDuplicates; decide, by unfold CohortConstant; decide, by decide, by decide, by decide +kernel, ?_⟩
  ext u
  simp only [UnitsOf, Set.mem_ofPred_eq, Set.mem_empty_iff_false, iff_false]
  rintro ⟨r, hr, _, hc⟩
  rcases List.mem_cons.1 hr with rfl | hr
  · exact absurd hc (by decide)
  · rcases List.mem_cons.1 hr with rfl | hr
    · exact absurd hc (by decide)
    · cases hr

/-- **C274, violated with `panel=False`.** There the size is the number of rows of the cohort over all periods, so
rows, not units, are compared with `n_covs + 5`: for every number of covariates one never-treated unit, observed often
enough, passes. -/
theorem C274_rows_not_units_violated (nCovs : ℕ) :
    ∃ (df : List (Obs ℕ ℕ)) (w : List (WithTop ℤ)), NoDuplicates df ∧ (UnitsOf df ⊤).ncard = 1 ∧
      gate false .neverTreated nCovs df = .pass w := by
  set df : List (Obs ℕ ℕ) :=
    (⟨0, 1, (2, 0)⟩ : Obs ℕ ℕ) :: (List.range (nCovs + 5)).map fun (k : ℕ) => ⟨1, (k : ℤ), (⊤, 0)⟩ with hdf
  have hw : ∃ w, gate false .neverTreated nCovs df = .pass w := by
    rw [gate_pass_iff]
    refine ⟨⟨⟨0, 1, (2, 0)⟩, by rw [hdf]; exact List.mem_cons_self, by decide⟩, fun _ hm => ?_⟩
    rw [mem_smallGroups] at hm
    have h := hm.2
    have hrows : cohortRows df ⊤ = nCovs + 5 := by
      rw [cohortRows, hdf, List.filter_cons_of_neg (by decide), List.filter_eq_self.2, List.length_map,
        List.length_range]
      intro r hr
      obtain ⟨k, _, rfl⟩ := List.mem_map.1 hr
      rfl
    rw [gateSize, if_neg (by decide), hrows] at h
    exact lt_irrefl _ h
  obtain ⟨w, hw⟩ := hw
  refine ⟨df, w, ?_, ?_, hw⟩
  · rw [hdf]
    refine List.pairwise_cons.2 ⟨?_, ?_⟩
    · rintro r hr ⟨h, _⟩
      obtain ⟨k, _, rfl⟩ := List.mem_map.1 hr
      exact absurd (show (0 : ℕ) = 1 from h) (by decide)
    · rw [List.pairwise_map]
      refine List.nodup_range.imp ?_
      rintro a b hab ⟨_, h⟩
      exact hab (Int.ofNat.inj h)
  · have : UnitsOf df ⊤ = {1} := by
      ext u
      simp only [UnitsOf, Set.mem_ofPred_eq, Set.mem_singleton_iff]
      constructor
      · rintro ⟨r, hr, h, hc⟩
        rw [hdf] at hr
        rcases List.mem_cons.1 hr with rfl | hr
        · exact absurd hc (by decide)
        · obtain ⟨k, _, rfl⟩ := List.mem_map.1 hr
          exact h.symm
      · rintro rfl
        exact ⟨⟨1, ((0 : ℕ) : ℤ), (⊤, 0)⟩, by
          rw [hdf]; exact List.mem_cons_of_mem _ (List.mem_map.2 ⟨0, List.mem_range.2 (by omega), rfl⟩), rfl, rfl⟩
    rw [this, Set.ncard_singleton]

end Verif.Prep
