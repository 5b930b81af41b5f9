import Verif.Inter.VarModel
import Mathlib.Data.List.ProdSigma
import Mathlib.Data.Rat.Defs
import Mathlib.Algebra.Order.Ring.Rat
import Mathlib.Tactic.NormNum
import Mathlib.Data.Fintype.Basic
import Mathlib.Data.Fin.VecNotation
import Mathlib.Data.Fintype.BigOperators

/-!
# C273: filling the panel of did_multiplegt

Models `DIDInterPanelBalancer` (`moderndid/core/preprocess/transformers.py:792-814`), the `drop_missing_preswitch` filter of
`SwitcherIdentifier` (lines 665-681), the columns `weight_gt` and `first_obs_by_gp` of `DIDInterDataPreparer` (lines 932-948) and the
cluster column used by the standard error (`didinter/compute_did_multiplegt.py:455-466`).

The columns `F_g`, `d_sq`, `S_g`, `L_g` are one value `tag` per row, constant within a unit and never missing on the rows that reach the
balancer; the code replaces them by their mean within the unit, which for equal numbers (or infinities) is that value.  (Unit, period)
pairs are distinct (checked by the validator, C69).
-/

set_option linter.unusedSectionVars false
set_option linter.unusedSimpArgs false

namespace Verif.Inter.Balance

variable {ι τ γ K : Type*} [DecidableEq ι]

/-- A row of the data: unit, period, outcome, treatment, cluster, and the switch columns. -/
structure GRow (ι τ γ K : Type*) where
  id : ι
  t : ℤ
  y : Option K
  d : Option K
  cl : Option γ
  tag : Option τ
deriving DecidableEq

/-- The row of a pair, if any. -/
def rowAt (rows : List (GRow ι τ γ K)) (u : ι) (t : ℤ) : Option (GRow ι τ γ K) :=
  rows.find? fun r => decide (r.id = u) && decide (r.t = t)

/-- Mean of the switch columns over the unit, `transformers.py:809-812`. -/
def unitTag (rows : List (GRow ι τ γ K)) (u : ι) : Option τ := (rows.find? fun r => decide (r.id = u)).bind GRow.tag

/-- One row of the joined frame, `transformers.py:807-812`: missing everywhere when the pair does not occur. -/
def joined (rows : List (GRow ι τ γ K)) (p : ι × ℤ) : GRow ι τ γ K :=
  match rowAt rows p.1 p.2 with
  | some r => { r with tag := unitTag rows p.1 }
  | none => ⟨p.1, p.2, none, none, none, unitTag rows p.1⟩

/-- `DIDInterPanelBalancer`, `transformers.py:792-814`: all pairs of a unit and a period of the data. -/
def fill (rows : List (GRow ι τ γ K)) : List (GRow ι τ γ K) :=
  ((rows.map GRow.id).dedup ×ˢ (rows.map GRow.t).dedup).map (joined rows)

/-- `weight_gt`, `transformers.py:933-943`, without a weight column. -/
def weight [Zero K] [One K] (r : GRow ι τ γ K) : K := if r.y.isNone || r.d.isNone then 0 else 1

/-- `first_obs_by_gp == 1`, `transformers.py:945-948`. -/
def isFirst (rows : List (GRow ι τ γ K)) (r : GRow ι τ γ K) : Bool :=
  decide (some r.t = ((rows.filter fun q => decide (q.id = r.id)).map GRow.t).min?)

/-- The cluster the standard error uses for a unit, `compute_did_multiplegt.py:455-460`: that of its flagged row. -/
def clusterOf (rows : List (GRow ι τ γ K)) (u : ι) : Option γ :=
  ((fill rows).find? fun r => decide (r.id = u) && isFirst (fill rows) r).bind GRow.cl

/-- Clustered standard error of a horizon before normalisation, `compute_did_multiplegt.py:455-466`. -/
def clusteredSe {K' : Type*} [Field K'] [Fintype ι] [DecidableEq γ] (sq : K' → K') (rows : List (GRow ι τ γ K)) (ψ : ι → K') : K' :=
  clusteredSE sq (clusterOf rows) ψ

/-- `_min_treat_time`, `transformers.py:666-671`. -/
def minTreat (rows : List (GRow ι τ γ K)) (u : ι) : Option ℤ :=
  ((rows.filter fun r => decide (r.id = u) && r.d.isSome).map GRow.t).min?

/-- Is the row dropped by `drop_missing_preswitch`, `transformers.py:673-680`?  `F` is the first switch in the tag. -/
def preswitchMissing (F : τ → WithTop ℤ) (rows : List (GRow ι τ γ K)) (r : GRow ι τ γ K) : Bool :=
  match minTreat rows r.id, r.tag with
  | some m, some g => decide ((m : WithTop ℤ) < F g) && decide (m ≤ r.t) && decide ((r.t : WithTop ℤ) < F g) && r.d.isNone
  | _, _ => false

/-- The filter of `drop_missing_preswitch=True`, `transformers.py:665-681`. -/
def dropMissing (F : τ → WithTop ℤ) (rows : List (GRow ι τ γ K)) : List (GRow ι τ γ K) :=
  rows.filter fun r => !preswitchMissing F rows r

/-! ## Specification -/

/-- At most one row per (unit, period). -/
def Distinct (rows : List (GRow ι τ γ K)) : Prop := ∀ r ∈ rows, ∀ q ∈ rows, r.id = q.id → r.t = q.t → r = q

/-- The switch columns are constant within units and not missing. -/
def Tagged (rows : List (GRow ι τ γ K)) (g : ι → τ) : Prop := ∀ r ∈ rows, r.tag = some (g r.id)

/-- The unit has a row in the first period of the data. -/
def SeenFirst (rows : List (GRow ι τ γ K)) (u : ι) : Prop := ∃ r ∈ rows, r.id = u ∧ ∀ q ∈ rows, r.t ≤ q.t

theorem rowAt_some {rows : List (GRow ι τ γ K)} {u : ι} {t : ℤ} {r : GRow ι τ γ K} (h : rowAt rows u t = some r) :
    r ∈ rows ∧ r.id = u ∧ r.t = t := by
  have := List.find?_some h
  simp only [Bool.and_eq_true, decide_eq_true_eq] at this
  exact ⟨List.mem_of_find?_eq_some h, this.1, this.2⟩

theorem rowAt_mem {rows : List (GRow ι τ γ K)} (hd : Distinct rows) {r : GRow ι τ γ K} (hr : r ∈ rows) :
    rowAt rows r.id r.t = some r := by
  have hs : (rowAt rows r.id r.t).isSome := by
    unfold rowAt
    rw [List.find?_isSome]
    exact ⟨r, hr, by simp⟩
  obtain ⟨q, hq⟩ := Option.isSome_iff_exists.1 hs
  obtain ⟨h1, h2, h3⟩ := rowAt_some hq
  rw [hq, hd q h1 r hr h2 h3]

theorem rowAt_none {rows : List (GRow ι τ γ K)} {u : ι} {t : ℤ} (h : ∀ r ∈ rows, ¬ (r.id = u ∧ r.t = t)) :
    rowAt rows u t = none := by
  unfold rowAt
  rw [List.find?_eq_none]
  intro r hr
  have := h r hr
  simpa using this

theorem unitTag_eq {rows : List (GRow ι τ γ K)} {g : ι → τ} (ht : Tagged rows g) {u : ι} (hu : u ∈ rows.map GRow.id) :
    unitTag rows u = some (g u) := by
  unfold unitTag
  obtain ⟨r, hr, rfl⟩ := List.mem_map.1 hu
  have hs : (rows.find? fun q => decide (q.id = r.id)).isSome := by
    rw [List.find?_isSome]; exact ⟨r, hr, by simp⟩
  obtain ⟨q, hq⟩ := Option.isSome_iff_exists.1 hs
  have h1 := List.find?_some hq
  simp only [decide_eq_true_eq] at h1
  rw [hq, Option.bind_some, ht q (List.mem_of_find?_eq_some hq), h1]

theorem joined_key (rows : List (GRow ι τ γ K)) (p : ι × ℤ) : (joined rows p).id = p.1 ∧ (joined rows p).t = p.2 := by
  unfold joined
  cases h : rowAt rows p.1 p.2 with
  | none => exact ⟨rfl, rfl⟩
  | some r => exact (rowAt_some h).2

theorem mem_fill {rows : List (GRow ι τ γ K)} {r : GRow ι τ γ K} :
    r ∈ fill rows ↔ r.id ∈ rows.map GRow.id ∧ r.t ∈ rows.map GRow.t ∧ r = joined rows (r.id, r.t) := by
  unfold fill
  rw [List.mem_map]
  constructor
  · rintro ⟨⟨u, t⟩, hp, rfl⟩
    rw [List.mem_product, List.mem_dedup, List.mem_dedup] at hp
    have := joined_key rows (u, t)
    rw [this.1, this.2]
    exact ⟨hp.1, hp.2, rfl⟩
  · rintro ⟨h1, h2, h3⟩
    refine ⟨(r.id, r.t), ?_, h3.symm⟩
    rw [List.mem_product, List.mem_dedup, List.mem_dedup]
    exact ⟨h1, h2⟩

/-- **C273, the filled panel.** Every pair of a unit and a period of the data has exactly one row; observed rows keep their outcome,
treatment and cluster; added rows have no outcome and no treatment and weight zero; the switch columns of the unit are on all of
them. -/
theorem C273_filled_panel [Zero K] [One K] (rows : List (GRow ι τ γ K)) (hd : Distinct rows) (g : ι → τ) (ht : Tagged rows g) :
    ((fill rows).map fun r => (r.id, r.t)).Nodup ∧
    (∀ u t, (u ∈ rows.map GRow.id ∧ t ∈ rows.map GRow.t) ↔ ∃ r ∈ fill rows, r.id = u ∧ r.t = t) ∧
    (∀ r ∈ rows, r ∈ fill rows) ∧
    ∀ r ∈ fill rows, r.tag = some (g r.id) ∧ (r ∉ rows → r.y = none ∧ r.d = none ∧ weight r = 0) := by
  refine ⟨?_, ?_, ?_, ?_⟩
  · unfold fill
    rw [List.map_map]
    have : ((fun r : GRow ι τ γ K => (r.id, r.t)) ∘ joined rows) = id := by
      funext p
      have := joined_key rows p
      simp [this.1, this.2]
    rw [this, List.map_id]
    exact (List.nodup_dedup _).product (List.nodup_dedup _)
  · intro u t
    constructor
    · rintro ⟨h1, h2⟩
      refine ⟨joined rows (u, t), ?_, (joined_key rows (u, t)).1, (joined_key rows (u, t)).2⟩
      rw [mem_fill, (joined_key rows (u, t)).1, (joined_key rows (u, t)).2]
      exact ⟨h1, h2, rfl⟩
    · rintro ⟨r, hr, rfl, rfl⟩
      exact ⟨(mem_fill.1 hr).1, (mem_fill.1 hr).2.1⟩
  · intro r hr
    rw [mem_fill]
    refine ⟨List.mem_map_of_mem hr, List.mem_map_of_mem hr, ?_⟩
    unfold joined
    rw [rowAt_mem hd hr]
    dsimp only
    rw [unitTag_eq ht (List.mem_map_of_mem hr), ← ht r hr]
  · intro r hr
    obtain ⟨h1, h2, h3⟩ := mem_fill.1 hr
    constructor
    · rw [h3]
      unfold joined
      dsimp only
      have e := unitTag_eq ht h1
      cases hj : rowAt rows r.id r.t with
      | none => exact e
      | some q => dsimp only; rw [e, (rowAt_some hj).2.1]
    · intro hn
      have hnone : rowAt rows r.id r.t = none := by
        cases hj : rowAt rows r.id r.t with
        | none => rfl
        | some q =>
          exfalso
          apply hn
          obtain ⟨hq, hqi, hqt⟩ := rowAt_some hj
          rw [h3]
          unfold joined
          dsimp only
          rw [hj]
          dsimp only
          rw [unitTag_eq ht h1, ← hqi, ← ht q hq]
          exact hq
      have : r = ⟨r.id, r.t, none, none, none, unitTag rows r.id⟩ := by
        conv_lhs => rw [h3]
        unfold joined
        dsimp only
        rw [hnone]
      rw [this]
      exact ⟨rfl, rfl, rfl⟩

/-- **C273, who carries weight.** Without a weight column, a row of the filled panel has weight one if it is an observed row with both
outcome and treatment recorded, and weight zero otherwise. -/
theorem C273_weights [Zero K] [One K] (rows : List (GRow ι τ γ K)) (hd : Distinct rows) (g : ι → τ) (ht : Tagged rows g)
    (r : GRow ι τ γ K) (hr : r ∈ fill rows) :
    (r ∈ rows ∧ r.y ≠ none ∧ r.d ≠ none → weight r = 1) ∧ (¬ (r ∈ rows ∧ r.y ≠ none ∧ r.d ≠ none) → weight r = 0) := by
  constructor
  · rintro ⟨-, hy, hd'⟩
    unfold weight
    rw [if_neg]
    simp [hy, hd']
  · intro hn
    by_cases hm : r ∈ rows
    · unfold weight
      rw [if_pos]
      by_contra hc
      apply hn
      simp only [Bool.or_eq_true, Option.isNone_iff_eq_none, not_or] at hc
      exact ⟨hm, hc.1, hc.2⟩
    · exact (((C273_filled_panel rows hd g ht).2.2.2 r hr).2 hm).2.2

theorem min?_le {l : List ℤ} {m : ℤ} (h : l.min? = some m) : m ∈ l ∧ ∀ x ∈ l, m ≤ x := List.min?_eq_some_iff.1 h

/-- The cluster used for a unit is the one of its row in the first period of the data, and missing if it has none. -/
theorem clusterOf_eq (rows : List (GRow ι τ γ K)) (t0 : ℤ)
    (h0 : t0 ∈ rows.map GRow.t) (hmin : ∀ q ∈ rows, t0 ≤ q.t) (u : ι) (hu : u ∈ rows.map GRow.id) :
    clusterOf rows u = (rowAt rows u t0).bind GRow.cl := by
  have hfirst : ∀ r ∈ fill rows, (isFirst (fill rows) r = true ↔ r.t = t0) := by
    intro r hr
    unfold isFirst
    rw [decide_eq_true_eq]
    have hmem : t0 ∈ ((fill rows).filter fun q => decide (q.id = r.id)).map GRow.t := by
      refine List.mem_map.2 ⟨joined rows (r.id, t0), List.mem_filter.2 ⟨?_, ?_⟩, (joined_key rows (r.id, t0)).2⟩
      · rw [mem_fill, (joined_key rows (r.id, t0)).1, (joined_key rows (r.id, t0)).2]
        exact ⟨(mem_fill.1 hr).1, h0, rfl⟩
      · simpa using (joined_key rows (r.id, t0)).1
    have hm : (((fill rows).filter fun q => decide (q.id = r.id)).map GRow.t).min? = some t0 := by
      rw [List.min?_eq_some_iff]
      refine ⟨hmem, ?_⟩
      intro x hx
      obtain ⟨q, hq, rfl⟩ := List.mem_map.1 hx
      obtain ⟨p, hp, hpt⟩ := List.mem_map.1 (mem_fill.1 (List.mem_filter.1 hq).1).2.1
      rw [← hpt]
      exact hmin p hp
    rw [hm, Option.some.injEq]
  unfold clusterOf
  have hmem : joined rows (u, t0) ∈ fill rows := by
    rw [mem_fill, (joined_key rows (u, t0)).1, (joined_key rows (u, t0)).2]
    exact ⟨hu, h0, rfl⟩
  have hs : ((fill rows).find? fun r => decide (r.id = u) && isFirst (fill rows) r).isSome := by
    rw [List.find?_isSome]
    refine ⟨_, hmem, ?_⟩
    rw [Bool.and_eq_true, (hfirst _ hmem), decide_eq_true_eq]
    exact joined_key rows (u, t0)
  obtain ⟨q, hq⟩ := Option.isSome_iff_exists.1 hs
  rw [hq, Option.bind_some]
  have hqm := List.mem_of_find?_eq_some hq
  have hp := List.find?_some hq
  rw [Bool.and_eq_true, decide_eq_true_eq, hfirst q hqm] at hp
  obtain ⟨_, _, e⟩ := mem_fill.1 hqm
  rw [hp.1, hp.2] at e
  rw [e]
  unfold joined
  dsimp only
  cases rowAt rows u t0 <;> rfl

/-- **C273, clusters.** The cluster used for a unit in the standard error is the cluster of its row in the first period of the data;
for a unit without such a row it is missing, although its cluster is recorded on every row it has. -/
theorem C273_cluster_of_unit (rows : List (GRow ι τ γ K)) (hd : Distinct rows) (c : ι → γ)
    (hc : ∀ r ∈ rows, r.cl = some (c r.id)) (u : ι) (hu : u ∈ rows.map GRow.id) :
    (SeenFirst rows u → clusterOf rows u = some (c u)) ∧ (¬ SeenFirst rows u → clusterOf rows u = none) := by
  obtain ⟨t0, h0⟩ : ∃ t0, (rows.map GRow.t).min? = some t0 := by
    obtain ⟨r, hr, _⟩ := List.mem_map.1 hu
    cases h : (rows.map GRow.t).min? with
    | none =>
      rw [List.min?_eq_none_iff] at h
      have : r.t ∈ rows.map GRow.t := List.mem_map_of_mem hr
      rw [h] at this
      simp at this
    | some m => exact ⟨m, rfl⟩
  obtain ⟨h0m, hmin⟩ := min?_le h0
  have hmin' : ∀ q ∈ rows, t0 ≤ q.t := fun q hq => hmin q.t (List.mem_map_of_mem hq)
  rw [clusterOf_eq rows t0 h0m hmin' u hu]
  constructor
  · rintro ⟨r, hr, rfl, hle⟩
    obtain ⟨q, hq, hqt⟩ := List.mem_map.1 h0m
    have : r.t = t0 := le_antisymm (hqt ▸ hle q hq) (hmin' r hr)
    rw [← this, rowAt_mem hd hr, Option.bind_some, hc r hr]
  · intro hn
    rw [rowAt_none, Option.bind_none]
    rintro r hr ⟨rfl, hrt⟩
    exact hn ⟨r, hr, rfl, fun q hq => hrt ▸ hmin' q hq⟩

/-- **C273 (Violated), late entrants.** With a cluster variable the reported standard error does not depend on the influence values of
units that are not observed in the first period of the data, although the estimate does. -/
theorem C273_late_entrants_violated {K' : Type*} [Field K'] [Fintype ι] [DecidableEq γ] (sq : K' → K')
    (rows : List (GRow ι τ γ K)) (hd : Distinct rows) (c : ι → γ)
    (hc : ∀ r ∈ rows, r.cl = some (c r.id)) (hall : ∀ u, u ∈ rows.map GRow.id) (ψ φ : ι → K')
    (h : ∀ u, SeenFirst rows u → ψ u = φ u) : clusteredSe sq rows ψ = clusteredSe sq rows φ := by
  have hk : ∀ i ∈ known (clusterOf rows), ψ i = φ i := by
    intro i hi
    apply h
    by_contra hn
    have := (C273_cluster_of_unit rows hd c hc i (hall i)).2 hn
    unfold known at hi
    rw [Finset.mem_filter, this] at hi
    simp at hi
  unfold clusteredSe clusteredSE
  have e1 : ∑ i ∈ known (clusterOf rows), ψ i ^ 2 = ∑ i ∈ known (clusterOf rows), φ i ^ 2 :=
    Finset.sum_congr rfl fun i hi => by rw [hk i hi]
  have e2 : ∀ q, ∑ i ∈ (known (clusterOf rows)).filter (fun i => clusterOf rows i = q), ψ i =
      ∑ i ∈ (known (clusterOf rows)).filter (fun i => clusterOf rows i = q), φ i := fun q =>
    Finset.sum_congr rfl fun i hi => hk i (Finset.mem_filter.1 hi).1
  rw [e1]
  simp only [e2]

/-- **C273, everyone observed first.** If all units are observed in the first period, the standard error is the one clustered by the
units' clusters. -/
theorem C273_all_seen_first {K' : Type*} [Field K'] [Fintype ι] [DecidableEq γ] (sq : K' → K')
    (rows : List (GRow ι τ γ K)) (hd : Distinct rows) (c : ι → γ)
    (hc : ∀ r ∈ rows, r.cl = some (c r.id)) (hall : ∀ u, SeenFirst rows u) (ψ : ι → K') :
    clusteredSe sq rows ψ = clusteredSE sq (fun u => some (c u)) ψ := by
  have : clusterOf rows = fun u => some (c u) := by
    funext u
    obtain ⟨r, hr, hru, _⟩ := hall u
    exact (C273_cluster_of_unit rows hd c hc u (List.mem_map.2 ⟨r, hr, hru⟩)).1 (hall u)
  unfold clusteredSe
  rw [this]

/-- Three units in two periods; unit 2 enters in period 2. -/
def exRows : List (GRow (Fin 3) ℕ ℕ ℚ) :=
  [⟨0, 1, some 1, some 0, some 7, some 0⟩, ⟨1, 1, some 2, some 0, some 8, some 0⟩, ⟨0, 2, some 3, some 0, some 7, some 0⟩,
   ⟨1, 2, some 1, some 0, some 8, some 0⟩, ⟨2, 2, some 5, some 0, some 9, some 0⟩]

instance (rows : List (GRow ι τ γ K)) [DecidableEq τ] [DecidableEq γ] [DecidableEq K] : Decidable (Distinct rows) := by
  unfold Distinct; infer_instance

example : Distinct exRows ∧ Tagged exRows (fun _ => 0) ∧ (∀ r ∈ exRows, r.cl = some (![7, 8, 9] r.id)) ∧
    (∀ u, u ∈ exRows.map GRow.id) ∧ clusterOf exRows 2 = none ∧ clusterOf exRows 1 = some 8 ∧
    clusteredSe (K' := ℚ) id exRows ![0, 0, 100] = 0 ∧ clusteredSe (K' := ℚ) id exRows ![1, 2, 100] = 5 / 3 := by
  refine ⟨by decide +kernel, ?_, by decide +kernel, by decide +kernel, by decide +kernel, by decide +kernel, by decide +kernel,
    by decide +kernel⟩
  unfold Tagged
  decide +kernel

/-- **C273, `drop_missing_preswitch`.** After filling, the option changes exactly the rows whose treatment is missing between the unit's
first recorded treatment and its first switch: their outcome and cluster become missing too; all other rows, and the switch columns of all
rows, are unchanged (for units and periods that keep some row). -/
theorem C273_drop_missing_preswitch (F : τ → WithTop ℤ) (rows : List (GRow ι τ γ K)) (hd : Distinct rows) (g : ι → τ)
    (ht : Tagged rows g) (u : ι) (t : ℤ) (hu : u ∈ (dropMissing F rows).map GRow.id) :
    joined (dropMissing F rows) (u, t) =
      match rowAt rows u t with
      | some r => if preswitchMissing F rows r then ⟨u, t, none, none, none, some (g u)⟩ else r
      | none => ⟨u, t, none, none, none, some (g u)⟩ := by
  have hsub : ∀ r ∈ dropMissing F rows, r ∈ rows := fun r hr => (List.mem_filter.1 hr).1
  have ht' : Tagged (dropMissing F rows) g := fun r hr => ht r (hsub r hr)
  have hd' : Distinct (dropMissing F rows) := fun r hr q hq => hd r (hsub r hr) q (hsub q hq)
  have htag := unitTag_eq ht' hu
  have hnone : (∀ r ∈ dropMissing F rows, ¬ (r.id = u ∧ r.t = t)) →
      joined (dropMissing F rows) (u, t) = ⟨u, t, none, none, none, some (g u)⟩ := by
    intro h
    unfold joined
    rw [rowAt_none h, htag]
  cases hr : rowAt rows u t with
  | none =>
    dsimp only
    apply hnone
    rintro r hrm ⟨rfl, rfl⟩
    rw [rowAt_mem hd (hsub r hrm)] at hr
    cases hr
  | some r =>
    dsimp only
    obtain ⟨hm, rfl, rfl⟩ := rowAt_some hr
    split_ifs with hp
    · apply hnone
      rintro q hq ⟨h1, h2⟩
      have : q = r := hd q (hsub q hq) r hm h1 h2
      subst this
      have := (List.mem_filter.1 hq).2
      simp [hp] at this
    · have hk : r ∈ dropMissing F rows := List.mem_filter.2 ⟨hm, by simp [hp]⟩
      unfold joined
      rw [rowAt_mem hd' hk]
      dsimp only
      rw [htag, ← ht r hm]

/-- **C273, `drop_missing_preswitch`, which rows.** A row is affected exactly if its treatment is missing, it lies before the unit's first
switch, and the unit has a recorded treatment in an earlier (or the same) period. -/
theorem C273_dropped_iff (F : τ → WithTop ℤ) (rows : List (GRow ι τ γ K)) (g : ι → τ) (ht : Tagged rows g)
    (r : GRow ι τ γ K) (hr : r ∈ rows) :
    preswitchMissing F rows r = true ↔
      r.d = none ∧ (r.t : WithTop ℤ) < F (g r.id) ∧ ∃ q ∈ rows, q.id = r.id ∧ q.d ≠ none ∧ q.t ≤ r.t := by
  unfold preswitchMissing
  rw [ht r hr]
  cases hm : minTreat rows r.id with
  | none =>
    unfold minTreat at hm
    rw [List.min?_eq_none_iff, List.map_eq_nil_iff, List.filter_eq_nil_iff] at hm
    dsimp only
    constructor
    · intro h; cases h
    · rintro ⟨_, _, q, hq, h1, h2, _⟩
      have := hm q hq
      simp only [h1, decide_true, Bool.true_and] at this
      cases hx : q.d with
      | none => exact absurd hx h2
      | some x => rw [hx] at this; simp at this
  | some m =>
    obtain ⟨h1, h2⟩ := min?_le hm
    dsimp only
    simp only [Bool.and_eq_true, decide_eq_true_eq, Option.isNone_iff_eq_none]
    constructor
    · rintro ⟨⟨⟨_, h4⟩, h5⟩, h6⟩
      obtain ⟨q, hq, hqt⟩ := List.mem_map.1 h1
      obtain ⟨hq1, hq2⟩ := List.mem_filter.1 hq
      simp only [Bool.and_eq_true, decide_eq_true_eq] at hq2
      refine ⟨h6, h5, q, hq1, hq2.1, ?_, hqt ▸ h4⟩
      intro hn
      rw [hn] at hq2
      simp at hq2
    · rintro ⟨h6, h5, q, hq, hqi, hqd, hqt⟩
      have hle : m ≤ r.t := by
        refine le_trans (h2 q.t (List.mem_map.2 ⟨q, List.mem_filter.2 ⟨hq, ?_⟩, rfl⟩)) hqt
        simp only [hqi, decide_true, Bool.true_and]
        exact Option.isSome_iff_ne_none.2 hqd
      exact ⟨⟨⟨lt_of_le_of_lt (by exact_mod_cast hle) h5, hle⟩, h5⟩, h6⟩

/-- **C273, `drop_missing_preswitch`, who stays.** A unit with at least one recorded treatment keeps a row, so its switch columns survive. -/
theorem C273_units_survive (F : τ → WithTop ℤ) (rows : List (GRow ι τ γ K)) (r : GRow ι τ γ K) (hr : r ∈ rows)
    (hd : r.d ≠ none) : r.id ∈ (dropMissing F rows).map GRow.id := by
  refine List.mem_map.2 ⟨r, List.mem_filter.2 ⟨hr, ?_⟩, rfl⟩
  unfold preswitchMissing
  cases hx : r.d with
  | none => exact absurd hx hd
  | some x => cases minTreat rows r.id <;> cases r.tag <;> simp

example : (let rows : List (GRow ℕ ℕ ℕ ℚ) := [⟨0, 1, some 1, some 0, some 7, some 3⟩, ⟨0, 2, some 5, none, some 7, some 3⟩,
      ⟨0, 3, some 3, some 1, some 7, some 3⟩, ⟨1, 2, some 1, some 0, some 8, some 9⟩]
    Distinct rows ∧ (dropMissing (fun n : ℕ => ((n : ℤ) : WithTop ℤ)) rows).length = 3 ∧
    joined (dropMissing (fun n : ℕ => ((n : ℤ) : WithTop ℤ)) rows) (0, 2) = ⟨0, 2, none, none, none, some 3⟩) := by
  refine ⟨by decide +kernel, by decide +kernel, by decide +kernel⟩

end Verif.Inter.Balance
