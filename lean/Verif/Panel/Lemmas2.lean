import Verif.Panel.Lemmas
import Mathlib.Data.List.Perm.Basic

set_option linter.unusedSectionVars false

namespace Verif.Panel

variable {ι τ β : Type*} [DecidableEq ι] [DecidableEq τ]

/-- Grouping by key over a duplicate-free key list is a permutation of the rows having those keys. -/
theorem flatMap_filter_perm {α κ : Type*} [DecidableEq κ] (key : α → κ) (df : List α) :
    ∀ l : List κ, l.Nodup →
      (l.flatMap fun p => df.filter fun r => key r = p).Perm (df.filter fun r => key r ∈ l)
  | [], _ => by simp
  | p :: l, h => by
    rw [List.nodup_cons] at h
    have ih := flatMap_filter_perm key df l h.2
    rw [List.flatMap_cons]
    have h1 : (df.filter fun r => key r = p) =
        (df.filter fun r => key r ∈ p :: l).filter fun r => key r = p := by
      rw [List.filter_filter]
      apply List.filter_congr; intro r _
      by_cases hp : key r = p <;> simp [hp]
    have h2 : (df.filter fun r => key r ∈ l) =
        (df.filter fun r => key r ∈ p :: l).filter fun r => !decide (key r = p) := by
      rw [List.filter_filter]
      apply List.filter_congr; intro r _
      by_cases hp : key r = p
      · simp [hp, h.1]
      · simp [hp]
    refine (List.Perm.append (List.Perm.refl _) ih).trans ?_
    rw [h1, h2]
    exact List.filter_append_perm _ _

theorem nUnique_eq_ncard {df : List (Row ι τ β)} (u : ι) :
    nUnique ((df.filter fun r => r.id = u).map Row.t) = (SeenIn df u).ncard := by
  rw [nUnique_eq_card, ← Set.ncard_coe_finset]
  congr 1
  ext t
  rw [Finset.mem_coe, List.mem_toFinset, mem_unitTimes]
  rfl

theorem nUnique_periods_eq_ncard {df : List (Row ι τ β)} :
    nUnique (df.map Row.t) = {t | IsPeriod df t}.ncard := by
  rw [nUnique_eq_card, ← Set.ncard_coe_finset]
  congr 1
  ext t
  rw [Finset.mem_coe, List.mem_toFinset, mem_times]
  rfl

/-! ### rows kept by `make_balanced_panel` on duplicate-free panels -/

open Classical in
theorem makeBalanced_spec {df : List (Row ι τ β)} (h : NoDuplicates df) :
    makeBalanced df = df.filter fun r => FullyObserved df r.id := by
  rw [makeBalanced_eq_filter]
  apply List.filter_congr
  intro r _
  rw [unit_rows_length h, decide_eq_decide]
  exact nUnique_unit_eq_iff r.id

theorem NoDuplicates.filter {df : List (Row ι τ β)} (h : NoDuplicates df) (p : Row ι τ β → Bool) :
    NoDuplicates (df.filter p) := List.Pairwise.sublist List.filter_sublist h

theorem observed_makeBalanced {df : List (Row ι τ β)} (h : NoDuplicates df) {u : ι} {t : τ} :
    Observed (makeBalanced df) u t ↔ FullyObserved df u ∧ Observed df u t := by
  classical
  rw [makeBalanced_spec h]
  constructor
  · rintro ⟨r, hr, rfl, rfl⟩
    rw [List.mem_filter, decide_eq_true_eq] at hr
    exact ⟨hr.2, r, hr.1, rfl, rfl⟩
  · rintro ⟨hf, r, hr, rfl, rfl⟩
    exact ⟨r, List.mem_filter.2 ⟨hr, decide_eq_true hf⟩, rfl, rfl⟩

theorem fullyObserved_makeBalanced {df : List (Row ι τ β)} (h : NoDuplicates df) {u : ι}
    (hu : IsUnit (makeBalanced df) u) : FullyObserved (makeBalanced df) u := by
  obtain ⟨r, hr, rfl⟩ := hu
  have hO : Observed (makeBalanced df) r.id r.t := ⟨r, hr, rfl, rfl⟩
  rw [observed_makeBalanced h] at hO
  rintro t ⟨s, hs, rfl⟩
  have hs' : Observed (makeBalanced df) s.id s.t := ⟨s, hs, rfl, rfl⟩
  rw [observed_makeBalanced h] at hs' ⊢
  exact ⟨hO.1, hO.1 _ hs'.2.isPeriod⟩

theorem makeBalanced_noDuplicates {df : List (Row ι τ β)} (h : NoDuplicates df) :
    NoDuplicates (makeBalanced df) := by
  rw [makeBalanced_eq_filter]; exact h.filter _

/-! ### `unique` -/

theorem find_key_some {df : List (Row ι τ β)} {k : ι × τ} (h : k ∈ keys df) :
    ∃ r, df.find? (fun r => (r.id, r.t) = k) = some r := by
  rw [← Option.isSome_iff_exists, List.find?_isSome]
  simp only [keys, List.mem_map] at h
  obtain ⟨r, hr, rfl⟩ := h
  exact ⟨r, hr, by simp⟩

theorem keys_filterMap_aux (f : ι × τ → Option (Row ι τ β))
    (l : List (ι × τ)) (hf : ∀ k ∈ l, ∃ r, f k = some r ∧ (r.id, r.t) = k) :
    keys (l.filterMap f) = l := by
  induction l with
  | nil => rfl
  | cons k l ih =>
    obtain ⟨r, hr, hk⟩ := hf k (by simp)
    rw [List.filterMap_cons_some hr]
    have := ih fun k' hk' => hf k' (by simp [hk'])
    simp only [keys, List.map_cons] at this ⊢
    rw [this, hk]

theorem uniqueFirst_keys (df : List (Row ι τ β)) : keys (uniqueFirst df) = (keys df).dedup := by
  unfold uniqueFirst
  apply keys_filterMap_aux
  intro k hk
  rw [List.mem_dedup] at hk
  obtain ⟨r, hr⟩ := find_key_some hk
  exact ⟨r, hr, by simpa using List.find?_some hr⟩

theorem keys_reverse (df : List (Row ι τ β)) : keys df.reverse = (keys df).reverse := by
  simp [keys]

theorem uniqueLast_keys (df : List (Row ι τ β)) : keys (uniqueLast df) = (keys df).dedup := by
  unfold uniqueLast
  apply keys_filterMap_aux
  intro k hk
  rw [List.mem_dedup] at hk
  obtain ⟨r, hr⟩ := find_key_some (df := df.reverse) (k := k) (by rw [keys_reverse]; simpa using hk)
  exact ⟨r, hr, by simpa using List.find?_some hr⟩

theorem mem_uniqueFirst {df : List (Row ι τ β)} {r : Row ι τ β} :
    r ∈ uniqueFirst df ↔
      ∃ pre post, df = pre ++ r :: post ∧ ∀ s ∈ pre, ¬ (s.id = r.id ∧ s.t = r.t) := by
  simp only [uniqueFirst, List.mem_filterMap, List.mem_dedup]
  constructor
  · rintro ⟨k, _, hk⟩
    rw [List.find?_eq_some_iff_append] at hk
    obtain ⟨h1, pre, post, h2, h3⟩ := hk
    refine ⟨pre, post, h2, ?_⟩
    intro s hs
    have := h3 s hs
    simp only [decide_eq_true_eq] at h1
    simp only [Bool.not_eq_true', decide_eq_false_iff_not] at this
    rintro ⟨h4, h5⟩
    apply this; rw [← h1, h4, h5]
  · rintro ⟨pre, post, h1, h2⟩
    refine ⟨(r.id, r.t), ?_, ?_⟩
    · rw [mem_keys]; exact ⟨r, by simp [h1], rfl, rfl⟩
    · rw [List.find?_eq_some_iff_append]
      refine ⟨by simp, pre, post, h1, ?_⟩
      intro s hs
      have := h2 s hs
      simp only [Prod.mk.injEq, Bool.not_eq_true', decide_eq_false_iff_not]
      exact this

theorem mem_uniqueLast {df : List (Row ι τ β)} {r : Row ι τ β} :
    r ∈ uniqueLast df ↔
      ∃ pre post, df = pre ++ r :: post ∧ ∀ s ∈ post, ¬ (s.id = r.id ∧ s.t = r.t) := by
  have h : r ∈ uniqueLast df ↔ r ∈ uniqueFirst df.reverse := by
    simp only [uniqueLast, uniqueFirst, List.mem_filterMap, List.mem_dedup, keys_reverse,
      List.mem_reverse]
  rw [h, mem_uniqueFirst]
  constructor
  · rintro ⟨pre, post, h1, h2⟩
    refine ⟨post.reverse, pre.reverse, ?_, ?_⟩
    · have := congrArg List.reverse h1; simpa using this
    · intro s hs; exact h2 s (by simpa using hs)
  · rintro ⟨pre, post, h1, h2⟩
    refine ⟨post.reverse, pre.reverse, ?_, ?_⟩
    · rw [h1]; simp
    · intro s hs; exact h2 s (by simpa using hs)

theorem uniqueFirst_noDup_perm {df : List (Row ι τ β)} (h : NoDuplicates df) :
    (uniqueFirst df).Perm df := by
  have hn : df.Nodup := List.Nodup.of_map _ (noDuplicates_iff.1 h)
  have hn' : (uniqueFirst df).Nodup := by
    apply List.Nodup.of_map (fun r => (r.id, r.t))
    have := uniqueFirst_keys df
    unfold keys at this
    rw [this]; exact List.nodup_dedup _
  rw [List.perm_ext_iff_of_nodup hn' hn]
  intro r
  rw [mem_uniqueFirst]
  constructor
  · rintro ⟨pre, post, h1, _⟩; rw [h1]; simp
  · intro hr
    obtain ⟨pre, post, h1⟩ := List.append_of_mem hr
    refine ⟨pre, post, h1, ?_⟩
    intro s hs hst
    rw [h1, NoDuplicates, List.pairwise_append] at h
    exact h.2.2 s hs r (by simp) hst

theorem uniqueLast_noDup_perm {df : List (Row ι τ β)} (h : NoDuplicates df) :
    (uniqueLast df).Perm df := by
  have hn : df.Nodup := List.Nodup.of_map _ (noDuplicates_iff.1 h)
  have hn' : (uniqueLast df).Nodup := by
    apply List.Nodup.of_map (fun r => (r.id, r.t))
    have := uniqueLast_keys df
    unfold keys at this
    rw [this]; exact List.nodup_dedup _
  rw [List.perm_ext_iff_of_nodup hn' hn]
  intro r
  rw [mem_uniqueLast]
  constructor
  · rintro ⟨pre, post, h1, _⟩; rw [h1]; simp
  · intro hr
    obtain ⟨pre, post, h1⟩ := List.append_of_mem hr
    refine ⟨pre, post, h1, ?_⟩
    intro s hs hst
    rw [h1, NoDuplicates, List.pairwise_append] at h
    have := (List.pairwise_cons.1 h.2.1).1 s hs
    exact this ⟨hst.1.symm, hst.2.symm⟩

theorem uniqueMean_keys {K : Type*} [DivisionRing K] (df : List (Row ι τ K)) :
    keys (uniqueMean df) = (keys df).dedup := by
  simp only [keys, uniqueMean, List.map_map]
  exact List.map_id' _

theorem filter_key_singleton {df : List (Row ι τ β)} (h : NoDuplicates df) {r : Row ι τ β}
    (hr : r ∈ df) : (df.filter fun s => (s.id, s.t) = (r.id, r.t)) = [r] := by
  obtain ⟨pre, post, h1⟩ := List.append_of_mem hr
  subst h1
  rw [NoDuplicates, List.pairwise_append, List.pairwise_cons] at h
  obtain ⟨_, ⟨h3, _⟩, h5⟩ := h
  rw [List.filter_append, List.filter_cons_of_pos (by simp)]
  have e1 : (pre.filter fun s => (s.id, s.t) = (r.id, r.t)) = [] := by
    rw [List.filter_eq_nil_iff]; intro s hs
    have := h5 s hs r (by simp)
    simpa using this
  have e2 : (post.filter fun s => (s.id, s.t) = (r.id, r.t)) = [] := by
    rw [List.filter_eq_nil_iff]; intro s hs
    have := h3 s hs
    simp only [Prod.mk.injEq, decide_eq_true_eq]
    rintro ⟨a, b⟩; exact this ⟨a.symm, b.symm⟩
  rw [e1, e2]; rfl

theorem uniqueMean_noDup_perm {K : Type*} [DivisionRing K] {df : List (Row ι τ K)}
    (h : NoDuplicates df) : (uniqueMean df).Perm df := by
  have hn : df.Nodup := List.Nodup.of_map _ (noDuplicates_iff.1 h)
  have hn' : (uniqueMean df).Nodup := by
    apply List.Nodup.of_map (fun r => (r.id, r.t))
    have := uniqueMean_keys df
    unfold keys at this
    rw [this]; exact List.nodup_dedup _
  have key : ∀ s ∈ df, (⟨s.id, s.t,
      ((df.filter fun r => (r.id, r.t) = (s.id, s.t)).map Row.val).sum /
      (((df.filter fun r => (r.id, r.t) = (s.id, s.t)).map Row.val).length : K)⟩ : Row ι τ K) = s := by
    intro s hs
    rw [filter_key_singleton h hs]; simp
  rw [List.perm_ext_iff_of_nodup hn' hn]
  intro r
  simp only [uniqueMean, List.mem_map, List.mem_dedup]
  constructor
  · rintro ⟨⟨u, t⟩, hk, rfl⟩
    rw [mem_keys] at hk
    obtain ⟨s, hs, rfl, rfl⟩ := hk
    have := key s hs
    rw [this]; exact hs
  · intro hr
    exact ⟨(r.id, r.t), mem_keys.2 ⟨r, hr, rfl, rfl⟩, key r hr⟩

end Verif.Panel
