import Verif.Panel.Spec
import Mathlib.Data.Finset.Card
import Mathlib.Data.Finset.Prod
import Mathlib.Data.List.Nodup
import Mathlib.Data.Set.Card

/-! Helper lemmas for the panel utilities. -/

set_option linter.unusedSectionVars false

namespace Verif.Panel

variable {ι τ β : Type*} [DecidableEq ι] [DecidableEq τ]

theorem nUnique_eq_card {α : Type*} [DecidableEq α] (l : List α) : nUnique l = l.toFinset.card := by
  simp [nUnique, List.card_toFinset]

theorem mem_unitTimes {df : List (Row ι τ β)} {u : ι} {t : τ} :
    t ∈ (df.filter fun r => r.id = u).map Row.t ↔ Observed df u t := by
  simp only [List.mem_map, List.mem_filter, decide_eq_true_eq, Observed]
  constructor
  · rintro ⟨r, ⟨h1, h2⟩, h3⟩; exact ⟨r, h1, h2, h3⟩
  · rintro ⟨r, h1, h2, h3⟩; exact ⟨r, ⟨h1, h2⟩, h3⟩

theorem mem_times {df : List (Row ι τ β)} {t : τ} : t ∈ df.map Row.t ↔ IsPeriod df t := by
  simp [IsPeriod]

theorem mem_ids {df : List (Row ι τ β)} {u : ι} : u ∈ df.map Row.id ↔ IsUnit df u := by
  simp [IsUnit]

theorem mem_keys {df : List (Row ι τ β)} {u : ι} {t : τ} : (u, t) ∈ keys df ↔ Observed df u t := by
  simp [keys, Observed]

theorem Observed.isUnit {df : List (Row ι τ β)} {u : ι} {t : τ} (h : Observed df u t) : IsUnit df u := by
  obtain ⟨r, h1, h2, _⟩ := h; exact ⟨r, h1, h2⟩

theorem Observed.isPeriod {df : List (Row ι τ β)} {u : ι} {t : τ} (h : Observed df u t) :
    IsPeriod df t := by
  obtain ⟨r, h1, _, h2⟩ := h; exact ⟨r, h1, h2⟩

theorem noDuplicates_iff {df : List (Row ι τ β)} : NoDuplicates df ↔ (keys df).Nodup := by
  simp only [NoDuplicates, keys, List.Nodup, List.pairwise_map, ne_eq, Prod.mk.injEq]

theorem unitTimes_subset {df : List (Row ι τ β)} (u : ι) :
    ((df.filter fun r => r.id = u).map Row.t).toFinset ⊆ (df.map Row.t).toFinset := by
  intro t ht
  rw [List.mem_toFinset, mem_unitTimes] at ht
  rw [List.mem_toFinset, mem_times]
  exact ht.isPeriod

theorem nUnique_unit_le {df : List (Row ι τ β)} (u : ι) :
    nUnique ((df.filter fun r => r.id = u).map Row.t) ≤ nUnique (df.map Row.t) := by
  rw [nUnique_eq_card, nUnique_eq_card]
  exact Finset.card_le_card (unitTimes_subset u)

theorem nUnique_unit_eq_iff {df : List (Row ι τ β)} (u : ι) :
    nUnique ((df.filter fun r => r.id = u).map Row.t) = nUnique (df.map Row.t) ↔ FullyObserved df u := by
  rw [nUnique_eq_card, nUnique_eq_card]
  constructor
  · intro h t ht
    have he := Finset.eq_of_subset_of_card_le (unitTimes_subset u) (le_of_eq h.symm)
    rw [← mem_unitTimes, ← List.mem_toFinset, he, List.mem_toFinset, mem_times]
    exact ht
  · intro h
    congr 1
    apply Finset.Subset.antisymm (unitTimes_subset u)
    intro t ht
    rw [List.mem_toFinset, mem_times] at ht
    rw [List.mem_toFinset, mem_unitTimes]
    exact h t ht

theorem unit_rows_length {df : List (Row ι τ β)} (h : NoDuplicates df) (u : ι) :
    (df.filter fun r => r.id = u).length = nUnique ((df.filter fun r => r.id = u).map Row.t) := by
  have hn : ((df.filter fun r => r.id = u).map Row.t).Nodup := by
    have : (df.filter fun r => r.id = u).Pairwise fun r s => ¬ (r.id = s.id ∧ r.t = s.t) :=
      h.sublist List.filter_sublist
    rw [List.Nodup, List.pairwise_map]
    refine this.imp_of_mem ?_
    intro a b ha hb hab hEq
    simp only [List.mem_filter, decide_eq_true_eq] at ha hb
    exact hab ⟨ha.2.trans hb.2.symm, hEq⟩
  rw [nUnique, List.Nodup.dedup hn, List.length_map]

theorem mem_makeBalanced {df : List (Row ι τ β)} {r : Row ι τ β} :
    r ∈ makeBalanced df ↔ r ∈ df ∧ (df.filter fun s => s.id = r.id).length = nUnique (df.map Row.t) := by
  unfold makeBalanced
  by_cases he : df.isEmpty
  · rw [List.isEmpty_iff] at he; subst he; simp
  · simp only [he, Bool.false_eq_true, if_false, List.mem_filter, List.mem_map, decide_eq_true_eq,
      List.mem_dedup]
    constructor
    · rintro ⟨h1, ⟨u, n⟩, ⟨⟨v, hv, hvn⟩, hn⟩, hu⟩
      simp only [Prod.mk.injEq] at hvn hu hn
      obtain ⟨rfl, rfl⟩ := hvn
      subst hu
      exact ⟨h1, hn⟩
    · rintro ⟨h1, h2⟩
      exact ⟨h1, (r.id, _), ⟨⟨r.id, ⟨r, h1, rfl⟩, rfl⟩, h2⟩, rfl⟩

theorem makeBalanced_eq_filter (df : List (Row ι τ β)) :
    makeBalanced df =
      df.filter fun r => (df.filter fun s => s.id = r.id).length = nUnique (df.map Row.t) := by
  by_cases he : df.isEmpty
  · rw [List.isEmpty_iff] at he; subst he; simp [makeBalanced]
  · have hm : ∀ r, r ∈ makeBalanced df ↔ _ := fun r => mem_makeBalanced (df := df) (r := r)
    unfold makeBalanced at hm ⊢
    simp only [he, Bool.false_eq_true, if_false] at hm ⊢
    apply List.filter_congr
    intro r hr
    have := hm r
    simp only [List.mem_filter, hr, true_and] at this
    rw [Bool.eq_iff_iff, this, decide_eq_true_eq]

theorem mem_periodsPerUnit {df : List (Row ι τ β)} {u : ι} {n : ℕ} :
    (u, n) ∈ periodsPerUnit df ↔
      IsUnit df u ∧ n = nUnique ((df.filter fun r => r.id = u).map Row.t) := by
  simp only [periodsPerUnit, List.mem_map, List.mem_dedup, Prod.mk.injEq]
  constructor
  · rintro ⟨v, ⟨r, hr, rfl⟩, rfl, rfl⟩; exact ⟨⟨r, hr, rfl⟩, rfl⟩
  · rintro ⟨⟨r, hr, rfl⟩, rfl⟩; exact ⟨r.id, ⟨r, hr, rfl⟩, rfl, rfl⟩

theorem completeData_eq_filter (df : List (Row ι τ β)) (k : Option ℕ) :
    completeData df k =
      df.filter fun r => k.getD (nUnique (df.map Row.t)) ≤
        nUnique ((df.filter fun s => s.id = r.id).map Row.t) := by
  by_cases he : df.isEmpty
  · rw [List.isEmpty_iff] at he; subst he; simp [completeData]
  · unfold completeData
    simp only [he, Bool.false_eq_true, if_false]
    apply List.filter_congr
    intro r hr
    rw [Bool.eq_iff_iff, decide_eq_true_eq, decide_eq_true_eq]
    simp only [List.mem_map, List.mem_filter, decide_eq_true_eq]
    constructor
    · rintro ⟨⟨u, n⟩, ⟨h1, h2⟩, h3⟩
      rw [mem_periodsPerUnit] at h1
      simp only at h2 h3
      subst h3
      rw [← h1.2]; exact h2
    · intro h
      exact ⟨(r.id, _), ⟨mem_periodsPerUnit.2 ⟨⟨r, hr, rfl⟩, rfl⟩, h⟩, rfl⟩

theorem isBalanced_iff (df : List (Row ι τ β)) : isBalanced df = true ↔ Balanced df := by
  simp only [isBalanced, List.all_eq_true, decide_eq_true_eq]
  constructor
  · intro h u hu
    rw [← nUnique_unit_eq_iff]
    exact h (u, _) (mem_periodsPerUnit.2 ⟨hu, rfl⟩)
  · rintro h ⟨u, n⟩ hn
    rw [mem_periodsPerUnit] at hn
    simp only
    rw [hn.2, nUnique_unit_eq_iff]
    exact h u hn.1

theorem mem_fullGrid {df : List (Row ι τ β)} {p : ι × τ} :
    p ∈ fullGrid df ↔ IsUnit df p.1 ∧ IsPeriod df p.2 := by
  obtain ⟨u, t⟩ := p
  simp only [fullGrid, List.mem_product, List.mem_dedup, mem_ids, mem_times]

theorem fullGrid_nodup (df : List (Row ι τ β)) : (fullGrid df).Nodup :=
  List.Nodup.product (List.nodup_dedup _) (List.nodup_dedup _)

theorem fullGrid_length (df : List (Row ι τ β)) :
    (fullGrid df).length = nUnique (df.map Row.id) * nUnique (df.map Row.t) := by
  simp [fullGrid, List.length_product, nUnique]

theorem keysDedup_perm (df : List (Row ι τ β)) :
    ((fullGrid df).filter fun p => p ∈ (keys df).dedup).Perm (keys df).dedup := by
  rw [List.perm_ext_iff_of_nodup ((fullGrid_nodup df).filter _) (List.nodup_dedup _)]
  rintro ⟨u, t⟩
  simp only [List.mem_filter, mem_fullGrid, decide_eq_true_eq, List.mem_dedup, mem_keys]
  constructor
  · exact fun h => h.2
  · exact fun h => ⟨⟨h.isUnit, h.isPeriod⟩, h⟩

theorem scanGaps_count (df : List (Row ι τ β)) :
    nUnique (keys df) + (scanGaps df).length = nUnique (df.map Row.id) * nUnique (df.map Row.t) := by
  rw [← fullGrid_length, nUnique, ← (keysDedup_perm df).length_eq, scanGaps]
  rw [← List.countP_eq_length_filter, ← List.countP_eq_length_filter,
    List.length_eq_countP_add_countP (fun p => decide (p ∈ (keys df).dedup))]
  congr 1
  apply List.countP_congr
  intro p _
  simp

theorem mem_scanGaps {df : List (Row ι τ β)} {u : ι} {t : τ} :
    (u, t) ∈ scanGaps df ↔ IsUnit df u ∧ IsPeriod df t ∧ ¬ Observed df u t := by
  simp only [scanGaps, List.mem_filter, mem_fullGrid, decide_eq_true_eq, List.mem_dedup, mem_keys,
    and_assoc]

end Verif.Panel
