import Verif.Panel.Lemmas2
import Verif.Panel.Spec
import Mathlib.Algebra.Field.Rat
import Mathlib.Tactic.Ring

/-!
# Panel utilities: properties C01–C08, C12
-/

set_option linter.unusedSectionVars false

namespace Verif.Panel

variable {ι τ β : Type*} [DecidableEq ι] [DecidableEq τ]

/-- A three-unit example panel: unit 1 and 2 fully observed in periods 1, 2; unit 3 only in period 2. -/
def ex3 : List (Row ℕ ℕ ℚ) :=
  [⟨1, 1, 5⟩, ⟨3, 2, 7⟩, ⟨2, 2, 1⟩, ⟨1, 2, 6⟩, ⟨2, 1, 0⟩]

theorem ex3_noDup : NoDuplicates ex3 := by unfold NoDuplicates ex3; decide

/-! ## C01 -/

open Classical in
/-- **C01.** On a duplicate-free panel `make_balanced_panel` returns, in the original order and
unaltered, exactly the rows whose unit is observed in every period of the input. -/
theorem C01_makeBalanced_keeps_fully_observed (df : List (Row ι τ β)) (h : NoDuplicates df) :
    makeBalanced df = df.filter fun r => decide (FullyObserved df r.id) :=
  makeBalanced_spec h

example : NoDuplicates ex3 ∧ makeBalanced ex3 = [⟨1, 1, 5⟩, ⟨2, 2, 1⟩, ⟨1, 2, 6⟩, ⟨2, 1, 0⟩] :=
  ⟨ex3_noDup, by decide⟩

/-- Without the no-duplicates assumption the output is still an order-preserving selection of whole
units: rows are never altered, added or reordered, and two rows of the same unit are kept together. -/
theorem C01_makeBalanced_selects_whole_units (df : List (Row ι τ β)) :
    (makeBalanced df).Sublist df ∧
      ∀ r ∈ df, ∀ s ∈ df, r.id = s.id → (r ∈ makeBalanced df ↔ s ∈ makeBalanced df) := by
  refine ⟨by rw [makeBalanced_eq_filter]; exact List.filter_sublist, ?_⟩
  intro r hr s hs h
  rw [mem_makeBalanced, mem_makeBalanced, h]
  simp [hr, hs]

example : (⟨1, 1, 5⟩ : Row ℕ ℕ ℚ) ∈ ex3 ∧ (⟨1, 2, 6⟩ : Row ℕ ℕ ℚ) ∈ ex3 := by decide

/-! ## C02 -/

/-- **C02.** On duplicate-free panels the output is balanced, passes `is_balanced_panel`, and a second
application changes nothing. -/
theorem C02_makeBalanced_idempotent_balanced (df : List (Row ι τ β)) (h : NoDuplicates df) :
    Balanced (makeBalanced df) ∧ isBalanced (makeBalanced df) = true ∧
      makeBalanced (makeBalanced df) = makeBalanced df := by
  classical
  have hb : Balanced (makeBalanced df) := fun u hu => fullyObserved_makeBalanced h hu
  refine ⟨hb, (isBalanced_iff _).2 hb, ?_⟩
  rw [makeBalanced_spec (makeBalanced_noDuplicates h), List.filter_eq_self]
  intro r hr
  exact decide_eq_true (hb _ ⟨r, hr, rfl⟩)

example : NoDuplicates ex3 ∧ makeBalanced ex3 ≠ [] := ⟨ex3_noDup, by decide⟩

/-- **C02, violated without the assumption.** With a duplicated row the output of
`make_balanced_panel` can fail `is_balanced_panel`. -/
theorem C02_output_balanced_violated :
    ∃ df : List (Row ℕ ℕ ℕ), isBalanced (makeBalanced df) = false :=
  ⟨[⟨1, 1, 0⟩, ⟨1, 1, 0⟩, ⟨2, 1, 0⟩, ⟨2, 2, 0⟩], by decide⟩

/-- **C02, violated without the assumption.** With duplicated rows a second application can drop
further rows. -/
theorem C02_idempotent_violated :
    ∃ df : List (Row ℕ ℕ ℕ), makeBalanced (makeBalanced df) ≠ makeBalanced df :=
  ⟨[⟨1, 1, 0⟩, ⟨1, 1, 0⟩, ⟨1, 2, 0⟩, ⟨2, 1, 0⟩, ⟨2, 2, 0⟩, ⟨3, 3, 0⟩], by decide⟩

/-! ## C03 -/

/-- **C03.** On duplicate-free panels `complete_data` without threshold is `make_balanced_panel`. -/
theorem C03_completeData_default_eq (df : List (Row ι τ β)) (h : NoDuplicates df) :
    completeData df none = makeBalanced df := by
  rw [completeData_eq_filter, makeBalanced_eq_filter]
  apply List.filter_congr
  intro r _
  rw [unit_rows_length h, decide_eq_decide]
  have := nUnique_unit_le (df := df) r.id
  simp only [Option.getD_none]
  omega

example : NoDuplicates ex3 ∧ (completeData ex3 none).length = 4 := ⟨ex3_noDup, by decide⟩

open Classical in
/-- **C03.** `complete_data(min_periods=k)` keeps, in order, exactly the rows of units seen in at least
`k` distinct periods; with no threshold, of units seen in as many periods as the panel has.
Duplicates are allowed. -/
theorem C03_completeData_threshold (df : List (Row ι τ β)) (k : Option ℕ) :
    completeData df k =
      df.filter fun r => decide (k.getD {t | IsPeriod df t}.ncard ≤ (SeenIn df r.id).ncard) := by
  rw [completeData_eq_filter]
  apply List.filter_congr
  intro r _
  rw [decide_eq_decide, nUnique_eq_ncard, nUnique_periods_eq_ncard]

/-- **C03.** Raising the threshold only removes rows. -/
theorem C03_completeData_monotone (df : List (Row ι τ β)) {k k' : ℕ} (h : k ≤ k') :
    (completeData df (some k')).Sublist (completeData df (some k)) := by
  rw [completeData_eq_filter, completeData_eq_filter]
  have : (df.filter fun r => k' ≤ nUnique ((df.filter fun s => s.id = r.id).map Row.t)) =
      (df.filter fun r => k ≤ nUnique ((df.filter fun s => s.id = r.id).map Row.t)).filter
        fun r => k' ≤ nUnique ((df.filter fun s => s.id = r.id).map Row.t) := by
    rw [List.filter_filter]
    apply List.filter_congr
    intro r _
    by_cases h' : k' ≤ nUnique ((df.filter fun s => s.id = r.id).map Row.t)
    · have := h.trans h'; simp [h', this]
    · simp [h']
  simp only [Option.getD_some]
  rw [this]; exact List.filter_sublist

example : completeData ex3 (some 1) = ex3 ∧ (completeData ex3 (some 2)).length = 4 := by decide

/-! ## C04 -/

/-- **C04.** `has_gaps` is false iff `scan_gaps` is empty iff `is_balanced_panel` iff every unit is
observed in every period. -/
theorem C04_balance_checks_agree (df : List (Row ι τ β)) :
    (hasGaps df = false ↔ Balanced df) ∧ (scanGaps df = [] ↔ Balanced df) ∧
      (isBalanced df = true ↔ Balanced df) := by
  have h2 : scanGaps df = [] ↔ Balanced df := by
    rw [List.eq_nil_iff_forall_not_mem]
    constructor
    · intro h u hu t ht
      by_contra hc
      exact h (u, t) (mem_scanGaps.2 ⟨hu, ht, hc⟩)
    · rintro h ⟨u, t⟩ hp
      rw [mem_scanGaps] at hp
      exact hp.2.2 (h u hp.1 t hp.2.1)
  refine ⟨?_, h2, isBalanced_iff df⟩
  rw [← h2, hasGaps, decide_eq_false_iff_not, ← scanGaps_count, ← List.length_eq_zero_iff]
  omega

example : hasGaps ex3 = true ∧ scanGaps ex3 = [(3, 1)] ∧ isBalanced ex3 = false := by decide

/-! ## C05 -/

theorem mem_fillGaps {df : List (Row ι τ β)} {r : Row ι τ (Option β)} :
    r ∈ fillGaps df ↔
      (∃ s ∈ df, r = ⟨s.id, s.t, some s.val⟩) ∨
      (r.val = none ∧ IsUnit df r.id ∧ IsPeriod df r.t ∧ ¬ Observed df r.id r.t) := by
  simp only [fillGaps, List.mem_flatMap, mem_fullGrid]
  constructor
  · rintro ⟨⟨u, t⟩, ⟨h1, h2⟩, h3⟩
    by_cases he : (df.filter fun r => (r.id, r.t) = (u, t)).isEmpty
    · rw [if_pos he] at h3
      rw [List.isEmpty_iff, List.filter_eq_nil_iff] at he
      simp only [List.mem_singleton] at h3
      subst h3
      refine Or.inr ⟨rfl, h1, h2, ?_⟩
      rintro ⟨s, hs, rfl, rfl⟩
      exact he s hs (by simp)
    · rw [if_neg he] at h3
      simp only [List.mem_map, List.mem_filter] at h3
      obtain ⟨s, ⟨hs, _⟩, rfl⟩ := h3
      exact Or.inl ⟨s, hs, rfl⟩
  · rintro (⟨s, hs, rfl⟩ | ⟨hv, hu, ht, ho⟩)
    · refine ⟨(s.id, s.t), ⟨⟨s, hs, rfl⟩, ⟨s, hs, rfl⟩⟩, ?_⟩
      have hm : s ∈ df.filter fun r => (r.id, r.t) = (s.id, s.t) := by simp [hs]
      rw [if_neg]
      · exact List.mem_map.2 ⟨s, hm, rfl⟩
      · rw [List.isEmpty_iff]; exact List.ne_nil_of_mem hm
    · refine ⟨(r.id, r.t), ⟨hu, ht⟩, ?_⟩
      rw [if_pos]
      · obtain ⟨a, b, c⟩ := r
        simp only at hv; subst hv; simp
      · rw [List.isEmpty_iff, List.filter_eq_nil_iff]
        intro s hs h
        simp only [Prod.mk.injEq, decide_eq_true_eq] at h
        exact ho ⟨s, hs, h.1, h.2⟩

theorem fillGaps_data_perm (df : List (Row ι τ β)) :
    ((fillGaps df).filter fun r => r.val.isSome).Perm
      (df.map fun s => (⟨s.id, s.t, some s.val⟩ : Row ι τ (Option β))) := by
  have h1 : ((fillGaps df).filter fun r => r.val.isSome) =
      ((fullGrid df).flatMap fun p => df.filter fun r => (r.id, r.t) = p).map
        fun s => (⟨s.id, s.t, some s.val⟩ : Row ι τ (Option β)) := by
    rw [fillGaps, List.filter_flatMap, List.map_flatMap]
    congr 1
    funext p
    by_cases he : (df.filter fun r => (r.id, r.t) = p).isEmpty
    · rw [if_pos he]
      rw [List.isEmpty_iff] at he
      simp [he]
    · rw [if_neg he, List.filter_eq_self]
      intro a ha
      simp only [List.mem_map] at ha
      obtain ⟨s, _, rfl⟩ := ha; rfl
  rw [h1]
  apply List.Perm.map
  refine (flatMap_filter_perm (fun r : Row ι τ β => (r.id, r.t)) df _ (fullGrid_nodup df)).trans ?_
  apply List.Perm.of_eq
  rw [List.filter_eq_self]
  intro r hr
  have hm : (r.id, r.t) ∈ fullGrid df := mem_fullGrid.2 ⟨⟨r, hr, rfl⟩, ⟨r, hr, rfl⟩⟩
  simp [hm]

theorem fillGaps_null_eq (df : List (Row ι τ β)) :
    ((fillGaps df).filter fun r => r.val.isNone) =
      (scanGaps df).map fun p => (⟨p.1, p.2, none⟩ : Row ι τ (Option β)) := by
  rw [fillGaps, scanGaps, List.filter_flatMap]
  induction fullGrid df with
  | nil => rfl
  | cons p l ih =>
    rw [List.flatMap_cons, ih, List.filter_cons]
    by_cases he : (df.filter fun r => (r.id, r.t) = p).isEmpty
    · rw [if_pos he, if_pos]
      · rfl
      · rw [List.isEmpty_iff, List.filter_eq_nil_iff] at he
        rw [decide_eq_true_eq, List.mem_dedup]
        obtain ⟨u, t⟩ := p
        rw [mem_keys]
        rintro ⟨s, hs, rfl, rfl⟩
        exact he s hs (by simp)
    · rw [if_neg he, if_neg]
      · have : ((df.filter fun r => (r.id, r.t) = p).map
            fun r => (⟨r.id, r.t, some r.val⟩ : Row ι τ (Option β))).filter
            (fun r => r.val.isNone) = [] := by
          rw [List.filter_eq_nil_iff]; intro a ha
          simp only [List.mem_map] at ha
          obtain ⟨s, _, rfl⟩ := ha; simp
        rw [this]; rfl
      · rw [decide_eq_true_eq, List.mem_dedup, not_not]
        rw [List.isEmpty_iff, List.filter_eq_nil_iff] at he
        push Not at he
        obtain ⟨s, hs, h⟩ := he
        rw [decide_eq_true_eq] at h
        exact List.mem_map.2 ⟨s, hs, h⟩

theorem observed_fillGaps {df : List (Row ι τ β)} {u : ι} {t : τ} :
    Observed (fillGaps df) u t ↔ IsUnit df u ∧ IsPeriod df t := by
  constructor
  · rintro ⟨r, hr, rfl, rfl⟩
    rw [mem_fillGaps] at hr
    rcases hr with ⟨s, hs, rfl⟩ | ⟨_, h1, h2, _⟩
    · exact ⟨⟨s, hs, rfl⟩, ⟨s, hs, rfl⟩⟩
    · exact ⟨h1, h2⟩
  · rintro ⟨h1, h2⟩
    by_cases ho : Observed df u t
    · obtain ⟨s, hs, rfl, rfl⟩ := ho
      exact ⟨_, mem_fillGaps.2 (Or.inl ⟨s, hs, rfl⟩), rfl, rfl⟩
    · exact ⟨⟨u, t, none⟩, mem_fillGaps.2 (Or.inr ⟨rfl, h1, h2, ho⟩), rfl, rfl⟩

open Classical in
/-- **C05.** The output observes exactly the grid of observed units and observed periods; its data rows
are a permutation of the input (nothing lost, altered or duplicated); its null rows are exactly one per
missing pair; it has no gaps. -/
theorem C05_fillGaps_complete (df : List (Row ι τ β)) :
    (∀ u t, Observed (fillGaps df) u t ↔ IsUnit df u ∧ IsPeriod df t) ∧
    ((fillGaps df).filter fun r => r.val.isSome).Perm
      (df.map fun s => (⟨s.id, s.t, some s.val⟩ : Row ι τ (Option β))) ∧
    (∀ u t, ((fillGaps df).filter fun r => r.val.isNone).count ⟨u, t, none⟩ =
      if IsUnit df u ∧ IsPeriod df t ∧ ¬ Observed df u t then 1 else 0) ∧
    Balanced (fillGaps df) ∧ hasGaps (fillGaps df) = false := by
  have hb : Balanced (fillGaps df) := by
    rintro u ⟨r, hr, rfl⟩ t ⟨s, hs, rfl⟩
    have h1 : Observed (fillGaps df) r.id r.t := ⟨r, hr, rfl, rfl⟩
    have h2 : Observed (fillGaps df) s.id s.t := ⟨s, hs, rfl, rfl⟩
    rw [observed_fillGaps] at h1 h2 ⊢
    exact ⟨h1.1, h2.2⟩
  refine ⟨fun u t => observed_fillGaps, fillGaps_data_perm df, ?_, hb,
    (C04_balance_checks_agree _).1.2 hb⟩
  intro u t
  rw [fillGaps_null_eq]
  have hn : ((scanGaps df).map fun p => (⟨p.1, p.2, none⟩ : Row ι τ (Option β))).Nodup := by
    apply List.Nodup.map
    · rintro ⟨a, b⟩ ⟨c, d⟩ h; simpa using h
    · exact (fullGrid_nodup df).filter _
  rw [hn.count]
  congr 1
  rw [← mem_scanGaps, eq_iff_iff]
  constructor
  · intro h
    obtain ⟨⟨a, b⟩, h1, h2⟩ := List.mem_map.1 h
    simp only [Row.mk.injEq, and_true] at h2
    rw [← h2.1, ← h2.2]; exact h1
  · intro h; exact List.mem_map.2 ⟨_, h, rfl⟩

example : fillGaps ex3 =
    [⟨3, 2, some 7⟩, ⟨3, 1, none⟩, ⟨1, 2, some 6⟩, ⟨1, 1, some 5⟩, ⟨2, 2, some 1⟩, ⟨2, 1, some 0⟩] := by
  decide

/-- **C05.** On its own output `fill_panel_gaps` adds nothing: the result is the same rows up to order. -/
theorem C05_fillGaps_idempotent (df : List (Row ι τ β)) :
    (fillGaps (fillGaps df)).Perm
      ((fillGaps df).map fun s => (⟨s.id, s.t, some s.val⟩ : Row ι τ (Option (Option β)))) := by
  refine List.Perm.trans (List.Perm.of_eq ?_) (fillGaps_data_perm (fillGaps df))
  symm
  rw [List.filter_eq_self]
  intro r hr
  rw [mem_fillGaps] at hr
  rcases hr with ⟨s, _, rfl⟩ | ⟨_, h1, h2, h3⟩
  · rfl
  · exact absurd ((C05_fillGaps_complete df).2.2.2.1 _ h1 _ h2) h3

example : (fillGaps (fillGaps ex3)).length = 6 := by decide

/-! ## C06 -/

/-- **C06.** `scan_gaps` lists exactly the missing pairs, each once, and their number is
units × periods − distinct observed pairs and equals `diagnose_panel`'s `n_gaps`. -/
theorem C06_scanGaps_exact (df : List (Row ι τ β)) :
    (∀ u t, (u, t) ∈ scanGaps df ↔ IsUnit df u ∧ IsPeriod df t ∧ ¬ Observed df u t) ∧
    (scanGaps df).Nodup ∧
    {p : ι × τ | Observed df p.1 p.2}.ncard + (scanGaps df).length =
      {u | IsUnit df u}.ncard * {t | IsPeriod df t}.ncard ∧
    (diagnose df).nGaps = (scanGaps df).length := by
  refine ⟨fun u t => mem_scanGaps, (fullGrid_nodup df).filter _, ?_, ?_⟩
  · have h1 : nUnique (keys df) = {p : ι × τ | Observed df p.1 p.2}.ncard := by
      rw [nUnique_eq_card, ← Set.ncard_coe_finset]
      congr 1
      ext ⟨u, t⟩
      rw [Finset.mem_coe, List.mem_toFinset, mem_keys]; rfl
    have h2 : nUnique (df.map Row.id) = {u | IsUnit df u}.ncard := by
      rw [nUnique_eq_card, ← Set.ncard_coe_finset]
      congr 1
      ext u
      rw [Finset.mem_coe, List.mem_toFinset, mem_ids]; rfl
    rw [← h1, ← h2, ← nUnique_periods_eq_ncard]
    exact scanGaps_count df
  · have := scanGaps_count df
    simp only [diagnose]
    rw [← this]; push_cast; ring

example : (diagnose ex3).nGaps = 1 := by decide

/-! ## C07 -/

/-- **C07.** After deduplication (any accepted strategy) exactly the pairs that occurred occur, each once;
`first`/`last` return the first/last original row of each pair, `mean` the average of the pair's values;
strings other than the three documented ones are rejected. -/
theorem C07_deduplicate_spec {K : Type*} [Field K] (df : List (Row ι τ K)) (strategy : String) :
    (deduplicate df strategy = none ↔ strategy ≠ "first" ∧ strategy ≠ "last" ∧ strategy ≠ "mean") ∧
    ∀ out, deduplicate df strategy = some out →
      NoDuplicates out ∧ (∀ u t, Observed out u t ↔ Observed df u t) ∧
      (strategy = "first" → ∀ r, r ∈ out ↔
        ∃ pre post, df = pre ++ r :: post ∧ ∀ s ∈ pre, ¬ (s.id = r.id ∧ s.t = r.t)) ∧
      (strategy = "last" → ∀ r, r ∈ out ↔
        ∃ pre post, df = pre ++ r :: post ∧ ∀ s ∈ post, ¬ (s.id = r.id ∧ s.t = r.t)) ∧
      (strategy = "mean" → ∀ r ∈ out,
        r.val = ((df.filter fun s => s.id = r.id ∧ s.t = r.t).map Row.val).sum /
          ((df.filter fun s => s.id = r.id ∧ s.t = r.t).length : K)) := by
  have key : ∀ out : List (Row ι τ K), keys out = (keys df).dedup →
      NoDuplicates out ∧ ∀ u t, Observed out u t ↔ Observed df u t := by
    intro out h
    refine ⟨noDuplicates_iff.2 (h ▸ List.nodup_dedup _), fun u t => ?_⟩
    rw [← mem_keys, h, List.mem_dedup, mem_keys]
  unfold deduplicate parseStrategy
  by_cases h1 : strategy = "first"
  · subst h1
    refine ⟨by simp, ?_⟩
    rintro out h
    simp only [if_true, Option.some.injEq] at h
    subst h
    have := key _ (uniqueFirst_keys df)
    exact ⟨this.1, this.2, fun _ r => mem_uniqueFirst, by simp, by simp⟩
  by_cases h2 : strategy = "last"
  · subst h2
    refine ⟨by simp, ?_⟩
    rintro out h
    simp at h
    subst h
    have := key _ (uniqueLast_keys df)
    exact ⟨this.1, this.2, by simp, fun _ r => mem_uniqueLast, by simp⟩
  by_cases h3 : strategy = "mean"
  · subst h3
    refine ⟨by simp, ?_⟩
    rintro out h
    simp at h
    subst h
    have := key _ (uniqueMean_keys df)
    refine ⟨this.1, this.2, by simp, by simp, fun _ r hr => ?_⟩
    simp only [uniqueMean, List.mem_map] at hr
    obtain ⟨⟨u, t⟩, _, rfl⟩ := hr
    simp [Prod.mk.injEq]
  · rw [if_neg h1, if_neg h2, if_neg h3]
    simp [h1, h2, h3]

/-- A panel in which pair (1,1) occurs three times. -/
def exDup : List (Row ℕ ℕ ℚ) := [⟨1, 1, 3⟩, ⟨2, 1, 4⟩, ⟨1, 1, 5⟩, ⟨1, 1, 10⟩]

example : deduplicate exDup "first" = some [⟨2, 1, 4⟩, ⟨1, 1, 3⟩] ∧
    deduplicate exDup "last" = some [⟨2, 1, 4⟩, ⟨1, 1, 10⟩] ∧
    deduplicate exDup "median" = none := by decide +kernel
example : deduplicate exDup "mean" = some [⟨2, 1, 4⟩, ⟨1, 1, 6⟩] := by decide +kernel

/-- **C07.** Duplicate-free panels are returned unchanged up to row order, whatever the strategy;
consequently deduplication is idempotent. -/
theorem C07_deduplicate_unchanged_idempotent {K : Type*} [Field K] (df out : List (Row ι τ K))
    (strategy : String) (h : deduplicate df strategy = some out) :
    (NoDuplicates df → out.Perm df) ∧ ∃ out', deduplicate out strategy = some out' ∧ out'.Perm out := by
  have key : ∀ (d o : List (Row ι τ K)), deduplicate d strategy = some o → NoDuplicates d →
      o.Perm d := by
    intro d o ho hd
    unfold deduplicate parseStrategy at ho
    split_ifs at ho
    · simp only [Option.some.injEq] at ho; subst ho; exact uniqueFirst_noDup_perm hd
    · simp only [Option.some.injEq] at ho; subst ho; exact uniqueLast_noDup_perm hd
    · simp only [Option.some.injEq] at ho; subst ho; exact uniqueMean_noDup_perm hd
  refine ⟨key df out h, ?_⟩
  have h0 := (C07_deduplicate_spec df strategy)
  have hno := (h0.2 out h).1
  cases ho : deduplicate out strategy with
  | none =>
    exfalso
    have h1 := (C07_deduplicate_spec out strategy).1.1 ho
    rw [h0.1.2 h1] at h; cases h
  | some o => exact ⟨o, rfl, key out o ho hno⟩

example : ∃ out, deduplicate exDup "mean" = some out := ⟨_, rfl⟩

/-! ## C08 -/

/-- **C08.** The diagnostic counts: duplicates are reported as zero iff no two rows share a pair;
no unit is reported unbalanced iff no gap is reported iff the balance flag is set iff the panel is
balanced; gaps + distinct pairs = units × periods; the duplicate count is rows − distinct pairs. -/
theorem C08_diagnose_consistent (df : List (Row ι τ β)) :
    ((diagnose df).nDups = 0 ↔ NoDuplicates df) ∧
    ((diagnose df).nUnbalanced = 0 ↔ Balanced df) ∧
    ((diagnose df).nGaps = 0 ↔ Balanced df) ∧
    ((diagnose df).balanced = true ↔ Balanced df) ∧
    (diagnose df).nDups = df.length - ({p : ι × τ | Observed df p.1 p.2}.ncard : ℤ) ∧
    (diagnose df).nGaps + {p : ι × τ | Observed df p.1 p.2}.ncard =
      ((diagnose df).nUnits * (diagnose df).nPeriods : ℕ) := by
  have hnc : nUnique (keys df) = {p : ι × τ | Observed df p.1 p.2}.ncard := by
    rw [nUnique_eq_card, ← Set.ncard_coe_finset]
    congr 1
    ext ⟨u, t⟩
    rw [Finset.mem_coe, List.mem_toFinset, mem_keys]; rfl
  refine ⟨?_, ?_, ?_, isBalanced_iff df, ?_, ?_⟩
  · have h1 : (keys df).dedup.length ≤ (keys df).length := (List.dedup_sublist _).length_le
    have h2 : (keys df).length = df.length := by simp [keys]
    rw [noDuplicates_iff]
    simp only [diagnose, nUnique]
    constructor
    · intro h
      have h3 : (keys df).dedup.length = (keys df).length := by omega
      have := (List.dedup_sublist (keys df)).eq_of_length h3
      exact List.dedup_eq_self.1 this
    · intro h; rw [List.dedup_eq_self.2 h, h2]; simp
  · simp only [diagnose, List.length_eq_zero_iff, List.filter_eq_nil_iff, decide_eq_true_eq]
    rw [← isBalanced_iff, isBalanced, List.all_eq_true]
    constructor
    · rintro h ⟨u, n⟩ hu
      have := h _ hu
      have h2 := (mem_periodsPerUnit.1 hu).2
      have h3 := nUnique_unit_le (df := df) u
      rw [decide_eq_true_eq]
      simp only at this ⊢
      omega
    · rintro h ⟨u, n⟩ hu
      have := h _ hu
      rw [decide_eq_true_eq] at this
      simp only at this ⊢
      omega
  · rw [(C06_scanGaps_exact df).2.2.2, ← (C04_balance_checks_agree df).2.1]
    simp
  · simp only [diagnose]; rw [hnc]
  · simp only [diagnose]; rw [hnc]; ring

example : diagnose ex3 = ⟨3, 2, 5, false, 0, 1, 1, 1⟩ := by decide
example : (diagnose exDup).nDups = 2 := by decide

/-- **C08, documented meaning violated.** `core/panel.py:65` documents the duplicate count as "rows that
share a unit-time pair with another row".  A panel with two identical keys has two such rows; one is
reported. -/
theorem C08_documented_duplicate_count_violated :
    ∃ df : List (Row ℕ ℕ ℕ), (diagnose df).nDups ≠
      ((df.zipIdx.filter fun p => df.zipIdx.any fun q =>
        p.2 ≠ q.2 ∧ p.1.id = q.1.id ∧ p.1.t = q.1.t).length : ℕ) :=
  ⟨[⟨1, 1, 0⟩, ⟨1, 1, 1⟩], by decide⟩

/-- **C08.** The number of single-period units and of early-treated units are counts of units with that
property. -/
theorem C08_nSingle_spec (df : List (Row ι τ β)) :
    (diagnose df).nSingle = {u | IsUnit df u ∧ (SeenIn df u).ncard = 1}.ncard := by
  simp only [diagnose, periodsPerUnit, List.filter_map, List.length_map]
  have : {u | IsUnit df u ∧ (SeenIn df u).ncard = 1} =
      ↑((df.map Row.id).dedup.filter
        ((fun c : ι × ℕ => decide (c.2 = 1)) ∘
          fun u => (u, nUnique ((df.filter fun r => r.id = u).map Row.t)))).toFinset := by
    ext u
    simp only [Set.mem_ofPred_eq, List.coe_toFinset, List.mem_filter, List.mem_dedup, mem_ids,
      Function.comp, decide_eq_true_eq]
    rw [nUnique_eq_ncard]
  rw [this, Set.ncard_coe_finset, List.toFinset_card_of_nodup]
  exact (List.nodup_dedup _).filter _

example : (diagnose ex3).nSingle = 1 := by decide

/-- **C08.** `treatment_time_varying` / `are_varying` report true iff some unit has two rows that differ
in the column. -/
theorem C08_isVarying_spec {γ : Type*} [DecidableEq γ] (f : β → γ) (df : List (Row ι τ β)) :
    isVarying f df = true ↔ ∃ r ∈ df, ∃ s ∈ df, r.id = s.id ∧ f r.val ≠ f s.val := by
  simp only [isVarying, List.any_eq_true, List.mem_map, List.mem_dedup, decide_eq_true_eq]
  constructor
  · rintro ⟨n, ⟨u, _, rfl⟩, h⟩
    rw [nUnique_eq_card, Finset.one_lt_card] at h
    obtain ⟨a, ha, b, hb, hab⟩ := h
    simp only [List.mem_toFinset, List.mem_map, List.mem_filter, decide_eq_true_eq] at ha hb
    obtain ⟨r, ⟨hr, h1⟩, rfl⟩ := ha
    obtain ⟨s, ⟨hs, h2⟩, rfl⟩ := hb
    exact ⟨r, hr, s, hs, h1.trans h2.symm, hab⟩
  · rintro ⟨r, hr, s, hs, h, hne⟩
    refine ⟨_, ⟨r.id, ⟨r, hr, rfl⟩, rfl⟩, ?_⟩
    rw [nUnique_eq_card, Finset.one_lt_card]
    refine ⟨f r.val, ?_, f s.val, ?_, hne⟩
    · simp only [List.mem_toFinset, List.mem_map, List.mem_filter, decide_eq_true_eq]
      exact ⟨r, ⟨hr, rfl⟩, rfl⟩
    · simp only [List.mem_toFinset, List.mem_map, List.mem_filter, decide_eq_true_eq]
      exact ⟨s, ⟨hs, h.symm⟩, rfl⟩

example : isVarying (fun x : ℚ => x) ex3 = true := by decide

/-! ## C12 -/

/-- **C12.** Each unit gets exactly one of the labels 1–4, and which one is determined by the two
indicators as documented. -/
theorem C12_dddSubgroup_table {γ : Type*} [DecidableEq γ] (treat treatVal : γ) (partition : ℤ) :
    (dddSubgroup treat treatVal partition = 4 ↔ treat = treatVal ∧ partition = 1) ∧
    (dddSubgroup treat treatVal partition = 3 ↔ treat = treatVal ∧ partition ≠ 1) ∧
    (dddSubgroup treat treatVal partition = 2 ↔ treat ≠ treatVal ∧ partition = 1) ∧
    (dddSubgroup treat treatVal partition = 1 ↔ treat ≠ treatVal ∧ partition ≠ 1) ∧
    dddSubgroup treat treatVal partition ∈ ({1, 2, 3, 4} : Set ℕ) := by
  by_cases h1 : treat = treatVal <;> by_cases h2 : partition = 1 <;> simp [dddSubgroup, h1, h2]

/-- **C12.** For a 0/1 eligibility column the recomputation in each (g,t) cell is the same function. -/
theorem C12_cell_subgroup_agrees {γ : Type*} [DecidableEq γ] (treat treatVal : γ) (partition : ℤ)
    (h : partition = 0 ∨ partition = 1) :
    dddSubgroupCell treat treatVal partition = dddSubgroup treat treatVal partition := by
  rcases h with rfl | rfl <;> by_cases h1 : treat = treatVal <;>
    simp [dddSubgroup, dddSubgroupCell, h1]

example : dddSubgroupCell (2004 : ℕ) 2004 0 = 3 := by decide

/-- **C12.** For other eligibility values the two disagree (the cell recomputation gives 0). -/
theorem C12_cell_subgroup_violated :
    ∃ (treat treatVal : ℕ) (partition : ℤ),
      dddSubgroupCell treat treatVal partition ≠ dddSubgroup treat treatVal partition :=
  ⟨1, 1, 2, by decide⟩

end Verif.Panel
