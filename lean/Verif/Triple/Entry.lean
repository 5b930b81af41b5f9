import Verif.Triple.Cells
import Mathlib.Data.List.Dedup
import Mathlib.Data.Finset.Card

/-!
# The entry point `ddd()`: which estimator runs on which rows, C208-C211

`moderndid/didtriple/ddd.py:412-545`, `moderndid/didtriple/utils.py:57-113`, the row handling of
`_ddd_rc_2period` (`estimators/ddd_rc.py:344-366`) and the two-period panel preprocessing.  Estimators are parameters.
Not modelled here: the range checks of scalar options (`ddd.py:418-433`), column lookups, backends and the distributed
entry points, a user column called `_row_id`.
-/

set_option linter.unusedSectionVars false
set_option linter.unusedSimpArgs false

namespace Verif.Triple.Entry

open Verif.Triple

variable {K R : Type*} [Field K]

/-- Options of `ddd()`, `ddd.py:16-41`. `useId`: `idname` given. Column names are kept as strings. -/
structure Opts (K : Type*) where
  panel : Bool := true
  useId : Bool := true
  allowUnbalanced : Bool := false
  meth : ℕ := 0
  universal : Bool := true
  notyet : Bool := false
  weights : Option String := none
  boot : Bool := false
  weightedBoot : Bool := false
  biters : ℕ := 1000
  cluster : Option String := none
  alpha : K
  trim : K
  seed : Option ℕ := none

/-- The four estimators behind the entry point: signatures as called in `ddd.py:454-473,474-492,495-510,532-545`. -/
structure Ests (K R : Type*) where
  /-- `ddd_mp(data, control_group, base_period, est_method, boot, biters, cluster, alpha, random_state)` -/
  mp : (notyet universal : Bool) → (meth : ℕ) → (boot : Bool) → (biters : ℕ) → (cluster : Option String) → (alpha : K) →
    (seed : Option ℕ) → List (Row K) → Option R
  /-- `ddd_mp_rc`, with `trim_level` -/
  mpRC : (notyet universal : Bool) → (meth : ℕ) → (boot : Bool) → (biters : ℕ) → (cluster : Option String) →
    (alpha trim : K) → (seed : Option ℕ) → List (Row K) → Option R
  /-- `ddd_rc` on rows with post indicator and subgroup -/
  rc : (weights : Option String) → (meth : ℕ) → (boot weightedBoot : Bool) → (biters : ℕ) → (alpha trim : K) →
    (seed : Option ℕ) → List (Row K × Bool × ℕ) → Option R
  /-- `ddd_panel` on units with post row, pre row and subgroup -/
  panel : (weights : Option String) → (meth : ℕ) → (boot weightedBoot : Bool) → (biters : ℕ) → (alpha : K) →
    (seed : Option ℕ) → List (Row K × Row K × ℕ) → Option R

/-- `n_unique`. -/
def nUnique {α : Type*} [DecidableEq α] (l : List α) : ℕ := l.dedup.length

/-- `len(finite_gvals)`, `utils.py:77-79`. -/
def finiteCodes (data : List (Row K)) : ℕ := nUnique (data.filterMap Row.g)

/-- `detect_multiple_periods`, `utils.py:57-81`. -/
def detectMultiple (data : List (Row K)) : Bool := decide (2 < max (nUnique (data.map Row.time)) (finiteCodes data))

/-- `max_obs == 1`, `validators.py:709-713`. -/
def everyUnitOnce (data : List (Row K)) : Bool := decide (data ≠ [] ∧ (data.map Row.id).Nodup)

/-- `is_balanced_panel`, `core/preprocess/utils.py:296-317`. -/
def isBalanced (data : List (Row K)) : Bool :=
  (data.map Row.id).all fun u =>
    decide (nUnique ((data.filter fun r => decide (r.id = u)).map Row.time) = nUnique (data.map Row.time))

/-- `detect_rcs_mode`, `utils.py:84-113`; `none` is the `ValueError` of the panel check. -/
def detectRcs (o : Opts K) (data : List (Row K)) : Option Bool :=
  if o.useId && o.panel && everyUnitOnce data then none
  else if !o.panel then some true
  else if !o.useId then some true
  else some (o.allowUnbalanced && !isBalanced data)

/-- Which estimator is run. -/
inductive Route | mpPanel | mpRC | twoRC | twoPanel
  deriving DecidableEq

/-- Dispatch, `ddd.py:416-417,435-512`; `none` is a `ValueError`. -/
def route (o : Opts K) (data : List (Row K)) : Option Route :=
  if o.panel && !o.useId then none
  else match detectRcs o data with
    | none => none
    | some isRcs =>
      if detectMultiple data then some (if o.panel && o.useId then .mpPanel else .mpRC)
      else some (if isRcs then .twoRC else .twoPanel)

/-- `treat`, `ddd_rc.py:355`. -/
def treatRC (c : Option ℤ) : Bool :=
  match c with
  | none => false
  | some v => decide (v ≠ 0)

/-- `subgroup`, `ddd_rc.py:360-365` and `create_ddd_subgroups` (`core/preprocess/utils.py:434-451`). -/
def codeOf (treated elig : Bool) : ℕ := if treated then (if elig then 4 else 3) else (if elig then 2 else 1)

/-- Row handling of `_ddd_rc_2period`, `ddd_rc.py:346-365`. -/
def twoRCRows (data : List (Row K)) : Option (List (Row K × Bool × ℕ)) :=
  match tlistOf data with
  | [_, t1] => some (data.map fun r => (r, decide (r.time = t1), codeOf (treatRC r.g) r.elig))
  | _ => none

/-- Two periods, two cohort codes the smaller of which is 0, constant cohort and eligibility: `validators.py:573-616`. -/
def twoPanelValid (data : List (Row K)) : Bool :=
  decide (nUnique (data.map Row.time) = 2) && decide (nUnique (data.map Row.g) = 2) &&
  decide (some 0 ∈ data.map Row.g) && (data.all fun r => match r.g with | none => true | some v => decide (0 ≤ v)) &&
  (data.all fun r => data.all fun s => !decide (r.id = s.id) || (decide (r.g = s.g) && (r.elig == s.elig)))

/-- `make_balanced_panel`, `core/preprocess/utils.py:34-58`. -/
def balancedRows (data : List (Row K)) : List (Row K) :=
  data.filter fun r => decide ((data.filter fun s => decide (s.id = r.id)).length = nUnique (data.map Row.time))

/-- `preprocess_ddd_2periods` up to the rows and subgroups handed to `ddd_panel`: `validators.py:573-616`,
`transformers.py:1020-1095`, `builders.py:324-342`.  The treated code is the larger of the two, so a unit is treated iff its
code is not 0.  Pairing by unit (simplified: no unit twice in a period, otherwise C96); the minimum subgroup sizes (C97) and
the removal of rows with missing values are left out. -/
def twoPanelRows (data : List (Row K)) : Option (List (Row K × Row K × ℕ)) :=
  if !twoPanelValid data then none
  else match tlistOf (balancedRows data) with
    | [t0, t1] => some ((pairs t1 t0 (balancedRows data)).map fun p =>
        (p.1, p.2, codeOf (decide (p.1.g ≠ some 0)) p.1.elig))
    | _ => none

/-- `ddd()`, `ddd.py:412-545`. -/
def entry (E : Ests K R) (o : Opts K) (data : List (Row K)) : Option R :=
  match route o data with
  | none => none
  | some .mpPanel => E.mp o.notyet o.universal o.meth o.boot o.biters o.cluster o.alpha o.seed data
  | some .mpRC => E.mpRC o.notyet o.universal o.meth o.boot o.biters o.cluster o.alpha o.trim o.seed data
  | some .twoRC => (twoRCRows data).bind
      (E.rc o.weights o.meth o.boot o.weightedBoot o.biters o.alpha o.trim o.seed)
  | some .twoPanel => (twoPanelRows data).bind
      (E.panel o.weights o.meth o.boot o.weightedBoot o.biters o.alpha o.seed)

/-! ## Specification -/

/-- Spec: treated cohorts of the data: finite codes other than 0. -/
def treatedCohorts (data : List (Row K)) : Finset ℤ := (data.filterMap Row.g).toFinset.erase 0

/-- Spec: the periods of the data. -/
def periodsOf (data : List (Row K)) : Finset ℤ := (data.map Row.time).toFinset

/-- Spec: never-treated units coded as infinity instead of 0. -/
def codeInf (r : Row K) : Row K := { r with g := if r.g = some 0 then none else r.g }

/-- Spec: some unit is coded 0. -/
def ZeroCoded (data : List (Row K)) : Prop := ∃ r ∈ data, r.g = some 0

/-- Spec: cohort `c` is treated in period `t` (0 and infinity: never). -/
def TreatedAt (c : Option ℤ) (t : ℤ) : Prop := ∃ v, c = some v ∧ v ≠ 0 ∧ v ≤ t

/-! ## C208: number of groups and the coding of never-treated units -/

lemma nUnique_eq {α : Type*} [DecidableEq α] (l : List α) : nUnique l = l.toFinset.card := by
  unfold nUnique; rw [List.card_toFinset]

lemma mem_codes (data : List (Row K)) (v : ℤ) : v ∈ data.filterMap Row.g ↔ ∃ r ∈ data, r.g = some v := by
  simp [List.mem_filterMap]

/-- **C208 (groups counted).** The number of groups the entry point counts is the number of treated cohorts, plus one if
some unit is coded 0: never-treated units coded as infinity are not a group, never-treated units coded 0 are one. -/
theorem C208_groups_counted (data : List (Row K)) [Decidable (ZeroCoded data)] :
    finiteCodes data = (treatedCohorts data).card + if ZeroCoded data then 1 else 0 := by
  unfold finiteCodes treatedCohorts
  rw [nUnique_eq]
  have hz : ZeroCoded data ↔ (0 : ℤ) ∈ (data.filterMap Row.g).toFinset := by
    rw [List.mem_toFinset, mem_codes]; rfl
  by_cases h : ZeroCoded data
  · rw [if_pos h, Finset.card_erase_add_one (hz.1 h)]
  · rw [if_neg h, Finset.erase_eq_of_notMem (fun hm => h (hz.2 hm)), add_zero]

lemma codes_codeInf (data : List (Row K)) (v : ℤ) :
    v ∈ (data.map codeInf).filterMap Row.g ↔ v ∈ data.filterMap Row.g ∧ v ≠ 0 := by
  rw [mem_codes, mem_codes]
  constructor
  · rintro ⟨r', hr', hv⟩
    obtain ⟨r, hr, rfl⟩ := List.mem_map.1 hr'
    unfold codeInf at hv
    dsimp only at hv
    by_cases h0 : r.g = some 0
    · rw [if_pos h0] at hv; cases hv
    · rw [if_neg h0] at hv
      exact ⟨⟨r, hr, hv⟩, fun h => h0 (by rw [hv, h])⟩
  · rintro ⟨⟨r, hr, hv⟩, h0⟩
    refine ⟨codeInf r, List.mem_map_of_mem hr, ?_⟩
    unfold codeInf
    dsimp only
    rw [if_neg (by rw [hv]; simpa using h0), hv]

lemma treatedCohorts_codeInf (data : List (Row K)) : treatedCohorts (data.map codeInf) = treatedCohorts data := by
  ext v
  unfold treatedCohorts
  rw [Finset.mem_erase, Finset.mem_erase, List.mem_toFinset, List.mem_toFinset, codes_codeInf]
  tauto

lemma finiteCodes_codeInf (data : List (Row K)) : finiteCodes (data.map codeInf) = (treatedCohorts data).card := by
  classical
  rw [C208_groups_counted, treatedCohorts_codeInf, if_neg, add_zero]
  rintro ⟨r, hr, h0⟩
  obtain ⟨s, _, rfl⟩ := List.mem_map.1 hr
  unfold codeInf at h0
  dsimp only at h0
  by_cases h : s.g = some 0
  · rw [if_pos h] at h0; cases h0
  · rw [if_neg h] at h0; exact h h0

lemma detectRcs_codeInf (o : Opts K) (data : List (Row K)) : detectRcs o (data.map codeInf) = detectRcs o data := by
  have hid : (data.map codeInf).map Row.id = data.map Row.id := by rw [List.map_map]; rfl
  have ht : (data.map codeInf).map Row.time = data.map Row.time := by rw [List.map_map]; rfl
  have h1 : everyUnitOnce (data.map codeInf) = everyUnitOnce data := by
    unfold everyUnitOnce; rw [hid]
    congr 1
    simp
  have h2 : isBalanced (data.map codeInf) = isBalanced data := by
    unfold isBalanced
    rw [hid, ht]
    congr 1
    funext u
    rw [List.filter_map, List.map_map]
    rfl
  unfold detectRcs
  rw [h1, h2]

/-- **C208 (coding).** Coding the never-treated units as infinity instead of 0 changes the estimator that is run exactly
when the data have at most two periods, exactly two treated cohorts, and some unit coded 0: then coding 0 runs the
group-time estimator and infinity the two-period one. -/
theorem C208_coding_matters_iff (o : Opts K) (data : List (Row K)) (hok : (route o data).isSome = true) :
    route o (data.map codeInf) ≠ route o data ↔
      (periodsOf data).card ≤ 2 ∧ (treatedCohorts data).card = 2 ∧ ZeroCoded data := by
  classical
  have ht : nUnique ((data.map codeInf).map Row.time) = (periodsOf data).card := by
    rw [nUnique_eq, List.map_map]; rfl
  have ht' : nUnique (data.map Row.time) = (periodsOf data).card := nUnique_eq _
  have hm : detectMultiple (data.map codeInf) = decide (2 < max (periodsOf data).card (treatedCohorts data).card) := by
    unfold detectMultiple; rw [ht, finiteCodes_codeInf]
  have hm' : detectMultiple data = decide (2 < max (periodsOf data).card
      ((treatedCohorts data).card + if ZeroCoded data then 1 else 0)) := by
    unfold detectMultiple; rw [ht', C208_groups_counted]
  unfold route at hok ⊢
  rw [detectRcs_codeInf, hm, hm']
  rw [hm'] at hok
  by_cases hp : (o.panel && !o.useId) = true
  · rw [if_pos hp] at hok; cases hok
  · rw [if_neg hp] at hok
    rw [if_neg hp, if_neg hp]
    cases hr : detectRcs o data with
    | none => rw [hr] at hok; cases hok
    | some b =>
      dsimp only
      by_cases hz : ZeroCoded data
      · rw [if_pos hz]
        by_cases h1 : 2 < max (periodsOf data).card (treatedCohorts data).card
        · have h2 : 2 < max (periodsOf data).card ((treatedCohorts data).card + 1) := by
            rcases lt_max_iff.1 h1 with h | h
            · exact lt_max_iff.2 (Or.inl h)
            · exact lt_max_iff.2 (Or.inr (by omega))
          rw [decide_eq_true h1, decide_eq_true h2]
          simp only [if_true, ne_eq, not_true, false_iff]
          rintro ⟨ha, hb, -⟩
          rcases lt_max_iff.1 h1 with h | h <;> omega
        · rw [not_lt, max_le_iff] at h1
          rw [decide_eq_false (by rw [not_lt, max_le_iff]; exact h1)]
          by_cases h2 : 2 < max (periodsOf data).card ((treatedCohorts data).card + 1)
          · rw [decide_eq_true h2]
            have : (treatedCohorts data).card = 2 := by
              rcases lt_max_iff.1 h2 with h | h <;> omega
            simp only [if_true, Bool.false_eq_true, if_false, ne_eq, Option.some.injEq]
            refine iff_of_true ?_ ⟨h1.1, this, hz⟩
            cases b <;> cases (o.panel && o.useId) <;> simp
          · rw [decide_eq_false h2]
            simp only [ne_eq, not_true, false_iff]
            rintro ⟨ha, hb, -⟩
            exact h2 (lt_max_iff.2 (Or.inr (by omega)))
      · rw [if_neg hz, add_zero]
        simp [hz]

/-- **C208 (agreement).** With more than two periods the same estimator is run whatever the coding. -/
theorem C208_same_route_many_periods (o : Opts K) (data : List (Row K)) (h : 2 < (periodsOf data).card)
    (hok : (route o data).isSome = true) : route o (data.map codeInf) = route o data := by
  by_contra hne
  have := ((C208_coding_matters_iff o data hok).1 hne).1
  omega

/-- Two periods (1 and 2), cohorts 2 and 3, never-treated units coded 0; every row a different person. -/
def exCross : List (Row ℚ) :=
  [⟨1, 1, some 2, true, 1⟩, ⟨2, 2, some 2, true, 9⟩, ⟨3, 1, some 2, false, 1⟩, ⟨4, 2, some 2, false, 2⟩,
   ⟨5, 1, some 3, true, 1⟩, ⟨6, 2, some 3, true, 2⟩, ⟨7, 1, some 3, false, 1⟩, ⟨8, 2, some 3, false, 2⟩,
   ⟨9, 1, some 0, true, 1⟩, ⟨10, 2, some 0, true, 2⟩, ⟨11, 1, some 0, false, 1⟩, ⟨12, 2, some 0, false, 2⟩]

/-- Options for repeated cross-sections, `panel=False`. -/
def exRC : Opts ℚ := { panel := false, useId := false, alpha := 1/20, trim := 199/200 }

example : (route exRC exCross).isSome = true ∧ 2 = (periodsOf exCross).card ∧ (treatedCohorts exCross).card = 2 := by
  decide +kernel

/-- **C208 (violated).** Repeated cross-sections of two periods with cohorts first treated in the second period and after
it: with never-treated units coded 0 the group-time estimator is run, with infinity the two-period one, and there the units
of the later cohort, untreated in both periods, are handed over as treated. -/
theorem C208_inf_coding_violated : ∃ (o : Opts ℚ) (data : List (Row ℚ)),
    route o data = some .mpRC ∧ route o (data.map codeInf) = some .twoRC ∧
    ∃ rows, twoRCRows (data.map codeInf) = some rows ∧
      ∃ e ∈ rows, (∀ s ∈ data, ¬ TreatedAt e.1.g s.time) ∧ e.2.2 = 4 := by
  refine ⟨exRC, exCross, by decide +kernel, by decide +kernel, _, rfl, ?_⟩
  refine ⟨(⟨5, 1, some 3, true, 1⟩, false, 4), by simp [exCross, codeInf, codeOf, treatRC], ?_, rfl⟩
  rintro s hs ⟨v, hv, -, hle⟩
  cases hv
  have : ∀ s ∈ exCross, s.time ≤ 2 := by decide +kernel
  have := this s hs
  omega

/-! ## C209: options that have no effect -/

lemma route_two {o : Opts K} {data : List (Row K)} (h : detectMultiple data = false) {r : Route}
    (hr : route o data = some r) : r = .twoRC ∨ r = .twoPanel := by
  unfold route at hr
  rw [h] at hr
  cases hp : (o.panel && !o.useId) <;> rw [hp] at hr <;> cases hd : detectRcs o data <;> rw [hd] at hr <;>
    simp only [Bool.false_eq_true, if_false, if_true, reduceCtorEq, Option.some.injEq] at hr
  split_ifs at hr
  · exact Or.inl hr.symm
  · exact Or.inr hr.symm

lemma route_panel {o : Opts K} {data : List (Row K)} (hp : o.panel = true) {r : Route}
    (hr : route o data = some r) : r ≠ .mpRC ∧ (o.allowUnbalanced = false → r ≠ .twoRC) := by
  unfold route detectRcs at hr
  rw [hp] at hr
  cases hu : o.useId <;> rw [hu] at hr <;> cases he : everyUnitOnce data <;> rw [he] at hr <;>
    cases hm : detectMultiple data <;> rw [hm] at hr <;> cases ha : o.allowUnbalanced <;> rw [ha] at hr <;>
    simp at hr <;> subst hr <;> simp
  cases isBalanced data <;> simp

/-- **C209 (cluster, violated).** With at most two periods and groups the `cluster` option, documented as supported exactly
there, never changes the result, whatever the estimators do, with and without bootstrap. -/
theorem C209_cluster_two_period_violated (E : Ests K R) (o : Opts K) (data : List (Row K)) (c : Option String)
    (h : detectMultiple data = false) : entry E { o with cluster := c } data = entry E o data := by
  have hr : route { o with cluster := c } data = route o data := rfl
  unfold entry
  rw [hr]
  cases hrt : route o data with
  | none => rfl
  | some r => rcases route_two h hrt with rfl | rfl <;> rfl

/-- Two periods, one treated cohort, never-treated units coded 0; a panel. -/
def exTwo : List (Row ℚ) :=
  [⟨1, 1, some 2, true, 1⟩, ⟨1, 2, some 2, true, 9⟩, ⟨2, 1, some 2, false, 1⟩, ⟨2, 2, some 2, false, 2⟩,
   ⟨3, 1, some 0, true, 1⟩, ⟨3, 2, some 0, true, 2⟩, ⟨4, 1, some 0, false, 1⟩, ⟨4, 2, some 0, false, 2⟩]

def exPanel : Opts ℚ := { alpha := 1/20, trim := 199/200 }

/-- Estimators returning what they were handed: the cluster option, the trim level, whether the bootstrap is the weighted one and
how many records. -/
def exEsts : Ests ℚ (Option String × Option ℚ × Option Bool × ℕ) where
  mp := fun _ _ _ _ _ c _ _ l => some (c, none, none, l.length)
  mpRC := fun _ _ _ _ _ c _ t _ l => some (c, some t, none, l.length)
  rc := fun _ _ _ b _ _ t _ l => some (none, some t, some b, l.length)
  panel := fun _ _ _ b _ _ _ l => some (none, none, some b, l.length)

example : detectMultiple exTwo = false ∧ (entry exEsts exPanel exTwo).isSome = true := by decide +kernel

/-- **C209 (cluster).** With more than two periods or groups the cluster column does reach the estimator. -/
theorem C209_cluster_multi (E : Ests K R) (o : Opts K) (data : List (Row K)) (h : detectMultiple data = true)
    (hok : (route o data).isSome = true) :
    entry E o data = if o.panel then E.mp o.notyet o.universal o.meth o.boot o.biters o.cluster o.alpha o.seed data
      else E.mpRC o.notyet o.universal o.meth o.boot o.biters o.cluster o.alpha o.trim o.seed data := by
  have hrt : route o data = some (if o.panel then .mpPanel else .mpRC) := by
    unfold route at hok ⊢
    by_cases hp : (o.panel && !o.useId) = true
    · rw [if_pos hp] at hok; cases hok
    · rw [if_neg hp] at hok ⊢
      cases hr : detectRcs o data with
      | none => rw [hr] at hok; cases hok
      | some b =>
        dsimp only
        rw [h, if_pos rfl]
        cases h1 : o.panel <;> cases h2 : o.useId <;> simp [h1, h2] at hp ⊢
  unfold entry
  rw [hrt]
  cases o.panel <;> rfl

example : entry exEsts { exPanel with cluster := some "region" } (exTwo ++ [⟨1, 3, some 2, true, 9⟩]) =
    some (some "region", none, none, 9) := by decide +kernel

/-- **C209 (panel data).** In panel mode the trim level has no effect as long as the two-period fallback to repeated
cross-sections is not taken; with several periods neither does the bootstrap type, nor the weights column. -/
theorem C209_trim_panel (E : Ests K R) (o : Opts K) (data : List (Row K)) (t : K) (b : Bool) (w : Option String)
    (hp : o.panel = true) :
    (o.allowUnbalanced = false → entry E { o with trim := t } data = entry E o data) ∧
    (detectMultiple data = true →
      entry E { o with trim := t, weightedBoot := b, weights := w } data = entry E o data) := by
  constructor
  · intro ha
    have hr : route { o with trim := t } data = route o data := rfl
    unfold entry
    rw [hr]
    cases hrt : route o data with
    | none => rfl
      | some r =>
      have hne := route_panel hp hrt
      cases r with
      | mpPanel => rfl
      | twoPanel => rfl
      | mpRC => exact absurd rfl hne.1
      | twoRC => exact absurd rfl (hne.2 ha)
  · intro hm
    by_cases hok : (route o data).isSome = true
    · rw [C209_cluster_multi E o data hm hok,
        C209_cluster_multi E { o with trim := t, weightedBoot := b, weights := w } data hm hok, hp, if_pos rfl]
      simp [hp]
    · have h1 : route o data = none := by cases hr : route o data with
        | none => rfl
        | some x => rw [hr] at hok; exact absurd rfl hok
      have h2 : route { o with trim := t, weightedBoot := b, weights := w } data = none := h1
      unfold entry
      rw [h1, h2]

example : exPanel.panel = true ∧ exPanel.allowUnbalanced = false ∧ (entry exEsts exPanel exTwo).isSome = true := by
  decide +kernel

/-- **C209 (options used with two periods).** Otherwise every option of the two-period estimators is the user's. -/
theorem C209_two_period_options (E : Ests K R) (o : Opts K) (data : List (Row K)) (h : detectMultiple data = false)
    (hok : (route o data).isSome = true) :
    entry E o data = (twoPanelRows data).bind
        (E.panel o.weights o.meth o.boot o.weightedBoot o.biters o.alpha o.seed) ∨
    entry E o data = (twoRCRows data).bind
        (E.rc o.weights o.meth o.boot o.weightedBoot o.biters o.alpha o.trim o.seed) := by
  unfold entry
  cases hrt : route o data with
  | none => rw [hrt] at hok; cases hok
  | some r =>
    rcases route_two h hrt with rfl | rfl
    · exact Or.inr rfl
    · exact Or.inl rfl

/-! ## C210: unbalanced panels -/

/-- **C210 (no error, violated).** With `allow_unbalanced_panel=False` the documented error for an unbalanced panel is never
raised by the dispatch: an unbalanced panel is estimated, with two periods on the units seen in both. -/
theorem C210_unbalanced_error_violated :
    (∃ data : List (Row ℚ), isBalanced data = false ∧ detectMultiple data = false ∧ exPanel.allowUnbalanced = false ∧
      ∃ rows, twoPanelRows data = some rows ∧ rows.length = 4 ∧ entry exEsts exPanel data = some (none, none, some false, 4)) ∧
    (∃ data : List (Row ℚ), isBalanced data = false ∧ detectMultiple data = true ∧
      (entry exEsts exPanel data).isSome = true) := by
  refine ⟨⟨exTwo ++ [⟨5, 1, some 2, true, 100⟩], by decide +kernel, by decide +kernel, rfl, ?_⟩,
    ⟨exTwo ++ [⟨1, 3, some 2, true, 9⟩], by decide +kernel, by decide +kernel, by decide +kernel⟩⟩
  have h : (twoPanelRows (exTwo ++ [⟨5, 1, some 2, true, 100⟩])).isSome = true := by decide +kernel
  obtain ⟨rows, hrows⟩ := Option.isSome_iff_exists.1 h
  refine ⟨rows, hrows, ?_, ?_⟩
  · have : ((twoPanelRows (exTwo ++ [⟨5, 1, some 2, true, 100⟩])).map List.length) = some 4 := by decide +kernel
    rw [hrows] at this
    simpa using this
  · decide +kernel

/-- **C210 (several periods).** With several periods the option has no effect at all. -/
theorem C210_option_without_effect (E : Ests K R) (o : Opts K) (data : List (Row K)) (b : Bool)
    (h : detectMultiple data = true) : entry E { o with allowUnbalanced := b } data = entry E o data := by
  have hr : route { o with allowUnbalanced := b } data = route o data := by
    unfold route detectRcs
    dsimp only
    rw [h]
    cases o.panel <;> cases o.useId <;> cases everyUnitOnce data <;> simp
  unfold entry
  rw [hr]

example : detectMultiple (exTwo ++ [⟨1, 3, some 2, true, 9⟩]) = true := by decide +kernel

/-- **C210 (two periods).** With two periods the option matters only for unbalanced panels: these are then treated as
repeated cross-sections, every row being used. -/
theorem C210_two_periods (E : Ests K R) (o : Opts K) (data : List (Row K)) (hm : detectMultiple data = false)
    (hp : o.panel = true) (hi : o.useId = true) (hn : everyUnitOnce data = false) :
    entry E { o with allowUnbalanced := true } data =
      (if isBalanced data then entry E { o with allowUnbalanced := false } data
       else (twoRCRows data).bind (E.rc o.weights o.meth o.boot o.weightedBoot o.biters o.alpha o.trim o.seed)) ∧
    (∀ rows, twoRCRows data = some rows → rows.map Prod.fst = data) := by
  constructor
  · have h1 : route { o with allowUnbalanced := true } data =
        some (if isBalanced data then .twoPanel else .twoRC) := by
      unfold route detectRcs
      dsimp only
      rw [hm, hp, hi, hn]
      cases isBalanced data <;> simp
    have h2 : route { o with allowUnbalanced := false } data = some .twoPanel := by
      unfold route detectRcs
      dsimp only
      rw [hm, hp, hi, hn]
      simp
    unfold entry
    rw [h1, h2]
    cases isBalanced data <;> rfl
  · intro rows h
    unfold twoRCRows at h
    split at h
    · cases h
      rw [List.map_map]
      exact List.map_id _
    · cases h

example : everyUnitOnce exTwo = false ∧ isBalanced exTwo = true ∧
    isBalanced (exTwo ++ [⟨5, 1, some 2, true, 100⟩]) = false ∧
    everyUnitOnce (exTwo ++ [⟨5, 1, some 2, true, 100⟩]) = false := by decide +kernel

/-! ## C211: who is treated in the two-period design -/

/-- Spec: the subgroup codes of a two-period design: 4 and 3 for units treated in the second and not in the first period,
eligible or not; 2 and 1 for units treated in neither. -/
def RightCode (t0 t1 : ℤ) (r : Row K) (code : ℕ) : Prop :=
  (TreatedAt r.g t1 ∧ ¬ TreatedAt r.g t0 ∧ code = (if r.elig then 4 else 3)) ∨
  (¬ TreatedAt r.g t1 ∧ ¬ TreatedAt r.g t0 ∧ code = (if r.elig then 2 else 1))

lemma rightCode_iff (t0 t1 : ℤ) (ht : t0 < t1) (r : Row K) :
    RightCode t0 t1 r (codeOf (treatRC r.g) r.elig) ↔ ∀ v, r.g = some v → v ≠ 0 → t0 < v ∧ v ≤ t1 := by
  unfold RightCode TreatedAt codeOf treatRC
  cases hg : r.g with
  | none => cases r.elig <;> simp
  | some v =>
    by_cases h0 : v = 0
    · subst h0; cases r.elig <;> simp
    · simp only [h0, ne_eq, not_false_eq_true, decide_true, if_true, Option.some.injEq, exists_eq_left', true_and,
        forall_eq', forall_true_left, not_le]
      cases r.elig <;> simp <;> omega

/-- **C211 (repeated cross-sections).** The subgroup of every row is the right one exactly if every treated cohort is first
treated after the first period and by the second. -/
theorem C211_rc_codes_right_iff (data : List (Row K)) (t0 t1 : ℤ) (ht : tlistOf data = [t0, t1]) (h01 : t0 < t1) :
    (∃ rows, twoRCRows data = some rows ∧ rows.map Prod.fst = data ∧
      (∀ e ∈ rows, (e.2.1 = true ↔ e.1.time = t1)) ∧
      ((∀ e ∈ rows, RightCode t0 t1 e.1 e.2.2) ↔ ∀ v ∈ treatedCohorts data, t0 < v ∧ v ≤ t1)) := by
  unfold twoRCRows
  rw [ht]
  refine ⟨_, rfl, ?_, ?_, ?_⟩
  · rw [List.map_map]; exact List.map_id _
  · intro e he
    obtain ⟨r, hr, rfl⟩ := List.mem_map.1 he
    simp
  · constructor
    · intro h v hv
      unfold treatedCohorts at hv
      rw [Finset.mem_erase, List.mem_toFinset, mem_codes] at hv
      obtain ⟨h0, r, hr, hg⟩ := hv
      exact (rightCode_iff t0 t1 h01 r).1 (h _ (List.mem_map_of_mem hr)) v hg h0
    · intro h e he
      obtain ⟨r, hr, rfl⟩ := List.mem_map.1 he
      refine (rightCode_iff t0 t1 h01 r).2 fun v hg h0 => h v ?_
      unfold treatedCohorts
      rw [Finset.mem_erase, List.mem_toFinset, mem_codes]
      exact ⟨h0, r, hr, hg⟩

example : tlistOf exCross = [1, 2] ∧ tlistOf exTwo = [1, 2] ∧ treatedCohorts exTwo = {2} := by decide +kernel

/-- **C211 (panel).** On a panel that passes the checks the subgroup of every unit is the right one if the treated cohort
is first treated after the first period and by the second; if it is not, the treated units have a wrong one. -/
theorem C211_panel_codes (data : List (Row K)) (rows : List (Row K × Row K × ℕ)) (h : twoPanelRows data = some rows)
    (hinf : ∀ r ∈ data, r.g ≠ none) :
    ∃ t0 t1, tlistOf (balancedRows data) = [t0, t1] ∧ ∀ e ∈ rows, t0 < t1 →
      (RightCode t0 t1 e.1 e.2.2 ↔ ∀ v, e.1.g = some v → v ≠ 0 → t0 < v ∧ v ≤ t1) := by
  unfold twoPanelRows at h
  split_ifs at h with hv
  split at h
  · rename_i t0 t1 ht
    cases h
    refine ⟨t0, t1, ht, fun e he h01 => ?_⟩
    obtain ⟨p, hp, rfl⟩ := List.mem_map.1 he
    have hm : p.1 ∈ data := by
      unfold balancedRows at hp
      exact List.mem_of_mem_filter (pairs_fst_mem _ _ _ _ hp).1
    have hc : decide (p.1.g ≠ some 0) = treatRC p.1.g := by
      unfold treatRC
      cases hg : p.1.g with
      | none => exact absurd hg (hinf _ hm)
      | some v => simp
    dsimp only
    rw [hc]
    exact rightCode_iff t0 t1 h01 p.1
  · cases h

/-- Two periods, cohort 3 (treated after both) and never-treated units. -/
def exLate : List (Row ℚ) :=
  [⟨1, 1, some 3, true, 1⟩, ⟨1, 2, some 3, true, 9⟩, ⟨2, 1, some 3, false, 1⟩, ⟨2, 2, some 3, false, 2⟩,
   ⟨3, 1, some 0, true, 1⟩, ⟨3, 2, some 0, true, 2⟩, ⟨4, 1, some 0, false, 1⟩, ⟨4, 2, some 0, false, 2⟩]

example : (twoPanelRows exTwo).isSome = true ∧ ∀ r ∈ exTwo, r.g ≠ none := by decide +kernel

/-- **C211 (violated).** Both two-period estimators accept a cohort first treated after the second period, or already
treated in the first, and treat its units as treated between the two: no check is made. -/
theorem C211_timing_violated :
    (∃ rows, twoPanelRows exLate = some rows ∧ ∃ e ∈ rows, ¬ TreatedAt e.1.g 2 ∧ e.2.2 = 4) ∧
    (∃ rows, twoRCRows exLate = some rows ∧ ∃ e ∈ rows, ¬ TreatedAt e.1.g 2 ∧ e.2.2 = 4) ∧
    (∃ rows, twoPanelRows (exLate.map fun r => { r with g := if r.g = some 3 then some 1 else r.g }) = some rows ∧
      ∃ e ∈ rows, TreatedAt e.1.g 1 ∧ e.2.2 = 4) := by
  have nt : ¬ TreatedAt (some 3) 2 := by rintro ⟨v, hv, -, hle⟩; cases hv; omega
  have key : ∀ (l : Option (List (Row ℚ × Row ℚ × ℕ))) (c : Option ℤ),
      (l.bind fun rows => rows.find? fun e => decide (e.1.g = c) && decide (e.2.2 = 4)).isSome = true →
      ∃ rows, l = some rows ∧ ∃ e ∈ rows, e.1.g = c ∧ e.2.2 = 4 := by
    intro l c h
    cases l with
    | none => cases h
    | some rows =>
      obtain ⟨e, he⟩ := Option.isSome_iff_exists.1 h
      have he' : rows.find? (fun e => decide (e.1.g = c) && decide (e.2.2 = 4)) = some e := he
      have h1 := List.find?_some he'
      have h2 := List.mem_of_find?_eq_some he'
      simp only [Bool.and_eq_true, decide_eq_true_eq] at h1
      exact ⟨rows, rfl, e, h2, h1⟩
  refine ⟨?_, ?_, ?_⟩
  · obtain ⟨rows, hr, e, he, h1, h2⟩ := key (twoPanelRows exLate) (some 3) (by decide +kernel)
    exact ⟨rows, hr, e, he, by rw [h1]; exact nt, h2⟩
  · refine ⟨_, rfl, (⟨1, 1, some 3, true, 1⟩, false, 4), by simp [exLate, codeOf, treatRC], nt, rfl⟩
  · obtain ⟨rows, hr, e, he, h1, h2⟩ := key (twoPanelRows
      (exLate.map fun r => { r with g := if r.g = some 3 then some 1 else r.g })) (some 1) (by decide +kernel)
    exact ⟨rows, hr, e, he, by rw [h1]; exact ⟨1, rfl, by decide, le_refl _⟩, h2⟩

end Verif.Triple.Entry
