import Verif.Inter.DistVar

/-!
# Distributed `did_multiplegt`, the filters before estimation: C189, C190

`moderndid/distributed/_didinter_preprocess.py:202-372, 455-482` (single machine: `core/preprocess/transformers.py:708-755,
825-874`).  `P` is the frame before the filters; `part` tells the partition of a unit.  The rounding of the standard deviation to
three decimals is not modelled, as in `Verif.Inter.Options`.
-/

set_option linter.unusedSectionVars false
set_option linter.unusedSimpArgs false

namespace Verif.Inter

open Finset

variable {ι β κ K : Type*} [Fintype ι] [DecidableEq ι] [DecidableEq β] [DecidableEq κ] [Field K] [LinearOrder K]

section
variable (P : Frame ι β K) (part : ι → κ)

/-- Rows kept by `FgVariationFilter` followed by `ControlsTimeFilter` on one machine, `transformers.py:714-755`: two rows of the cell
have different `_F_g_for_std`, and a never-switcher of the cell has a row in the period.  The first filter keeps or drops whole
cells, so it does not change what the second one sees in a kept cell. -/
def keptL : Finset P.Row := univ.filter fun r =>
  (∃ s s' : P.Row, P.cell s.1 = P.cell r.1 ∧ P.cell s'.1 = P.cell r.1 ∧ fForStd (P.F s.1) ≠ fForStd (P.F s'.1)) ∧
  ∃ s : P.Row, P.time s = P.time r ∧ P.cell s.1 = P.cell r.1 ∧ P.F s.1 = ⊤

/-- `valid_groups` is not empty, `_didinter_preprocess.py:234-241, 302-304, 352-353`: the value sets of the partitions are united. -/
def anyVariation : Prop :=
  ∃ s s' : P.Row, P.cell s.1 = P.cell s'.1 ∧ fForStd (P.F s.1) ≠ fForStd (P.F s'.1)

instance : Decidable (anyVariation P) := by unfold anyVariation; infer_instance

/-- Rows kept by `partition_preprocess_global`, lines 352-372: both `over` expressions run inside one partition. -/
def keptS : Finset P.Row := univ.filter fun r =>
  (anyVariation P → ∃ s s' : P.Row, part s.1 = part r.1 ∧ part s'.1 = part r.1 ∧ P.cell s.1 = P.cell r.1 ∧
    P.cell s'.1 = P.cell r.1 ∧ fForStd (P.F s.1) ≠ fForStd (P.F s'.1)) ∧
  ∃ s : P.Row, part s.1 = part r.1 ∧ P.time s = P.time r ∧ P.cell s.1 = P.cell r.1 ∧ P.F s.1 = ⊤

/-- C189.  When some baseline has two first-switch dates, the rows a cluster keeps are among those one machine keeps. -/
theorem C189_subset (hv : anyVariation P) : keptS P part ⊆ keptL P := by
  intro r hr
  unfold keptS at hr
  obtain ⟨h1, s, _, h2, h3, h4⟩ := (mem_filter.1 hr).2
  obtain ⟨a, b, _, _, h5, h6, h7⟩ := h1 hv
  unfold keptL
  rw [mem_filter]
  exact ⟨mem_univ _, ⟨a, b, h5, h6, h7⟩, s, h2, h3, h4⟩

/-- C189.  If the units of each baseline are on one worker, exactly the same rows are kept. -/
theorem C189_colocated (hv : anyVariation P) (hp : ∀ i j, P.cell i = P.cell j → part i = part j) : keptS P part = keptL P := by
  refine Subset.antisymm (C189_subset P part hv) ?_
  intro r hr
  unfold keptL at hr
  obtain ⟨⟨a, b, h1, h2, h3⟩, s, h4, h5, h6⟩ := (mem_filter.1 hr).2
  unfold keptS
  rw [mem_filter]
  exact ⟨mem_univ _, fun _ => ⟨a, b, hp _ _ h1, hp _ _ h2, h1, h2, h3⟩, s, hp _ _ h5, h4, h5, h6⟩

/-- C189 (violated: placement decides).  A row is dropped whenever no never-switcher of its baseline is on its own worker in that
period, no matter how many there are on the others. -/
theorem C189_no_local_control_violated (r : P.Row)
    (hno : ∀ s : P.Row, part s.1 = part r.1 → P.time s = P.time r → P.cell s.1 = P.cell r.1 → P.F s.1 ≠ ⊤) :
    r ∉ keptS P part := by
  intro hr
  unfold keptS at hr
  obtain ⟨_, s, h1, h2, h3, h4⟩ := (mem_filter.1 hr).2
  exact hno s h1 h2 h3 h4

/-- C189 (violated: never-switchers without a local switcher).  The rows of a worker whose units of a baseline all have one
first-switch date are dropped. -/
theorem C189_no_local_variation_violated (hv : anyVariation P) (r : P.Row)
    (hno : ∀ i j, part i = part r.1 → part j = part r.1 → P.cell i = P.cell r.1 → P.cell j = P.cell r.1 → P.F i = P.F j) :
    r ∉ keptS P part := by
  intro hr
  unfold keptS at hr
  obtain ⟨s, s', h1, h2, h3, h4, h5⟩ := (mem_filter.1 hr).2.1 hv
  exact h5 (by rw [hno s.1 s'.1 h1 h2 h3 h4])

/-- C189 (violated: many workers).  If no two units of a baseline share a worker, nothing is left to estimate from. -/
theorem C189_spread_violated (hv : anyVariation P) (hp : ∀ i j, P.cell i = P.cell j → part i = part j → i = j) :
    keptS P part = ∅ := by
  rw [eq_empty_iff_forall_notMem]
  intro r
  refine C189_no_local_variation_violated P part hv r fun i j h1 h2 h3 h4 => ?_
  rw [hp i j (h3.trans h4.symm) (h1.trans h2.symm)]

/-- C189 (violated: no variation anywhere).  Without two first-switch dates in any baseline the single machine keeps no row; the
cluster skips the filter and keeps the rows of the never-switchers. -/
theorem C189_no_variation_violated (hv : ¬ anyVariation P) :
    keptL P = ∅ ∧ ∀ r : P.Row, P.F r.1 = ⊤ → r ∈ keptS P part := by
  refine ⟨?_, ?_⟩
  · rw [eq_empty_iff_forall_notMem]
    intro r hr
    unfold keptL at hr
    obtain ⟨⟨a, b, h1, h2, h3⟩, _⟩ := (mem_filter.1 hr).2
    exact hv ⟨a, b, h1.trans h2.symm, h3⟩
  · intro r hr
    unfold keptS
    rw [mem_filter]
    exact ⟨mem_univ _, fun e => absurd e hv, r, rfl, rfl, rfl, hr⟩

/-- Every kept row satisfies the condition of C186 on the last period of its own partition. -/
theorem kept_window (r : P.Row) (hr : r ∈ keptS P part) : P.time r ≤ tGS P part r.1 := by
  unfold keptS at hr
  obtain ⟨_, s, h1, h2, h3, h4⟩ := (mem_filter.1 hr).2
  unfold tGS
  have hle : fTrunc P s.1 ≤ (univ.filter fun j => part j = part r.1 ∧ P.cell j = P.cell r.1).sup' ⟨r.1, by simp⟩ (fTrunc P) :=
    le_sup' (fTrunc P) (by simp [h1, h3])
  have hf : P.time s + 1 ≤ fTrunc P s.1 := by
    unfold fTrunc
    rw [h4]
    simp only [WithTop.untopD_top]
    have hm : P.t s.1 s.2 ∈ univ.image (P.t s.1) := mem_image_of_mem _ (mem_univ _)
    have hle := le_max hm
    cases hmx : (univ.image (P.t s.1)).max with
    | bot => rw [hmx] at hle; simp at hle
    | coe m =>
      rw [hmx, WithBot.coe_le_coe] at hle
      simp only [WithBot.unbotD_coe]
      have : P.time s = P.t s.1 s.2 := rfl
      omega
  rw [← h2]
  omega

/-- C189.  On the rows that pass the distributed filters, the partition-wise last period `T_g` never removes an influence
contribution that the single-machine one keeps. -/
theorem C189_window [IsStrictOrderedRing K] (h : ℕ) (r : P.Row) (hr : r ∈ keptS P part) : windowS P h part r = window P h r :=
  window_eq P h part r (kept_window P part r hr)

end

/-- Switchers on one worker, never-switchers on the other: everything is dropped; alternating: everything is kept. -/
example : anyVariation exB.frame ∧ keptS exB.frame (fun i => decide (i.1 ≤ 1)) = ∅ ∧
    keptS exB.frame (fun i => i.1 % 2) = univ ∧ keptL exB.frame = univ := by decide +kernel

/-- C189 (violated), concretely: the same call on the same data keeps 16 rows or none, depending only on which worker a unit is
hashed to. -/
theorem C189_placement_violated :
    (keptS exB.frame (fun i => i.1 % 2)).card = 16 ∧ (keptS exB.frame (fun i => i.1 / 2)).card = 0 ∧
    (keptL exB.frame).card = 16 := by decide +kernel

/-! ## C190: number of horizons -/

/-- `max_effects_available` of the metadata: each partition uses its own last period (`_didinter_preprocess.py:256, 263-269`), then
the maximum is taken (line 322); a partition without rows or without switchers gives 0. -/
def maxEffectsS (parts : List (ℤ × List ℤ)) : ℤ :=
  reduceOr max 0 (parts.map fun p => maxEffects p.1 p.2)

/-- `max_placebo_available`: each partition uses its own first period (lines 255, 266, 323). -/
def maxPlaceboS (parts : List (ℤ × List ℤ)) : ℤ :=
  reduceOr max 0 (parts.map fun p => maxPlacebo p.1 p.2)

theorem le_reduce_max (h : ℤ) (hh : 1 ≤ h) : ∀ l : List ℤ, h ≤ reduceOr max 0 l ↔ ∃ x ∈ l, h ≤ x
  | [] => by simp [reduceOr]; omega
  | a :: l => by
    show h ≤ l.foldl max a ↔ _
    induction l generalizing a with
    | nil => simp
    | cons b l ih =>
      rw [List.foldl_cons, ih]
      simp only [List.mem_cons, exists_eq_or_imp, le_max_iff, or_assoc]

/-- C190.  Horizon `h >= 1` is computed on a cluster iff it was requested and, on some worker, a unit's `F - 1 + h` is not past the
last period OF THAT WORKER'S DATA. -/
theorem C190_effects (requested : ℤ) (parts : List (ℤ × List ℤ)) (h : ℤ) (hh : 1 ≤ h) :
    h ≤ clamp requested (maxEffectsS parts) ↔ h ≤ requested ∧ ∃ p ∈ parts, ∃ f ∈ p.2, f - 1 + h ≤ p.1 := by
  have key : h ≤ maxEffectsS parts ↔ ∃ p ∈ parts, ∃ f ∈ p.2, f - 1 + h ≤ p.1 := by
    unfold maxEffectsS
    rw [le_reduce_max h hh]
    simp only [List.mem_map, exists_exists_and_eq_and, maxEffects]
    constructor
    · rintro ⟨p, hp, e⟩
      rw [le_maxD _ _ hh] at e
      simp only [List.mem_map, exists_exists_and_eq_and] at e
      obtain ⟨f, hf, e⟩ := e
      exact ⟨p, hp, f, hf, by omega⟩
    · rintro ⟨p, hp, f, hf, e⟩
      refine ⟨p, hp, ?_⟩
      rw [le_maxD _ _ hh]
      simp only [List.mem_map, exists_exists_and_eq_and]
      exact ⟨f, hf, by omega⟩
  rw [← key]
  unfold clamp
  split <;> omega

/-- C190.  Placebos likewise, with the first period of the worker's data. -/
theorem C190_placebo (requested : ℤ) (parts : List (ℤ × List ℤ)) (h : ℤ) (hh : 1 ≤ h) :
    h ≤ clamp requested (maxPlaceboS parts) ↔ h ≤ requested ∧ ∃ p ∈ parts, ∃ f ∈ p.2, p.1 ≤ f - 1 - h := by
  have key : h ≤ maxPlaceboS parts ↔ ∃ p ∈ parts, ∃ f ∈ p.2, p.1 ≤ f - 1 - h := by
    unfold maxPlaceboS
    rw [le_reduce_max h hh]
    simp only [List.mem_map, exists_exists_and_eq_and, maxPlacebo]
    constructor
    · rintro ⟨p, hp, e⟩
      rw [le_maxD _ _ hh] at e
      simp only [List.mem_map, exists_exists_and_eq_and] at e
      obtain ⟨f, hf, e⟩ := e
      exact ⟨p, hp, f, hf, by omega⟩
    · rintro ⟨p, hp, f, hf, e⟩
      refine ⟨p, hp, ?_⟩
      rw [le_maxD _ _ hh]
      simp only [List.mem_map, exists_exists_and_eq_and]
      exact ⟨f, hf, by omega⟩
  rw [← key]
  unfold clamp
  split <;> omega

/-- C190.  When every worker's data reach the last period, the horizons are those of one machine holding all the switchers. -/
theorem C190_equal (requested T : ℤ) (parts : List (ℤ × List ℤ)) (hT : ∀ p ∈ parts, p.1 = T) (h : ℤ) (hh : 1 ≤ h) :
    h ≤ clamp requested (maxEffectsS parts) ↔ h ≤ clamp requested (maxEffects T (parts.flatMap Prod.snd)) := by
  rw [C190_effects requested parts h hh, C59_effects requested T _ h hh]
  refine and_congr_right fun _ => ?_
  simp only [List.mem_flatMap]
  constructor
  · rintro ⟨p, hp, f, hf, e⟩
    exact ⟨f, ⟨p, hp, hf⟩, by rw [hT p hp] at e; exact e⟩
  · rintro ⟨f, ⟨p, hp, hf⟩, e⟩
    exact ⟨p, hp, f, hf, by rw [hT p hp]; exact e⟩

/-- C190.  A cluster never computes a horizon that one machine would not. -/
theorem C190_le (requested T : ℤ) (parts : List (ℤ × List ℤ)) (hT : ∀ p ∈ parts, p.1 ≤ T) (h : ℤ) (hh : 1 ≤ h)
    (hs : h ≤ clamp requested (maxEffectsS parts)) : h ≤ clamp requested (maxEffects T (parts.flatMap Prod.snd)) := by
  rw [C59_effects requested T _ h hh]
  obtain ⟨h1, p, hp, f, hf, e⟩ := (C190_effects requested parts h hh).1 hs
  exact ⟨h1, f, List.mem_flatMap.2 ⟨p, hp, hf⟩, le_trans e (hT p hp)⟩

example : clamp 5 (maxEffectsS [(4, [2, 3]), (4, [4]), (4, [])]) = 3 ∧ maxEffects 4 [2, 3, 4] = 3 ∧
    clamp 5 (maxPlaceboS [(1, [2, 3]), (1, [4])]) = 2 := by decide

/-- C190 (violated in unbalanced panels).  The only switcher is on a worker whose units are observed up to period 3, the data go on to
period 5: one machine computes 4 horizons, the cluster 2. -/
theorem C190_unbalanced_violated :
    clamp 4 (maxEffects 5 [2]) = 4 ∧ clamp 4 (maxEffectsS [(3, [2]), (5, [])]) = 2 := by decide

end Verif.Inter
