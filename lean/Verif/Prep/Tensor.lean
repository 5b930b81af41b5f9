import Verif.Prep.Props
import Mathlib.Tactic.Ring

/-!
# C18: outcome arrays are aligned by unit
-/

set_option linter.unusedSectionVars false

namespace Verif.Prep

open Verif.Panel

variable {ι β : Type*} [LinearOrder ι]

theorem leTGI_antisymm {df : List (Obs ι β)} (hn : NoDuplicates df) {a b : Obs ι β} (ha : a ∈ df)
    (hb : b ∈ df) (hab : leTGI a b) (hba : leTGI b a) : a = b := by
  have ht : a.t = b.t := by unfold leTGI at hab hba; omega
  have hid : a.id = b.id := by
    unfold leTGI at hab hba
    simp only [ht, lt_irrefl, true_and, false_or] at hab hba
    rcases hab with hab | hab <;> rcases hba with hba | hba
    · exact absurd (hab.trans hba) (lt_irrefl _)
    · rw [hba.1] at hab; exact absurd hab (lt_irrefl _)
    · rw [hab.1] at hba; exact absurd hba (lt_irrefl _)
    · exact le_antisymm hab.2 hba.2
  have := filter_key_singleton hn ha
  have hbm : b ∈ df.filter fun s => (s.id, s.t) = (a.id, a.t) := by simp [hb, hid, ht]
  rw [this] at hbm
  exact (List.mem_singleton.1 hbm).symm

/-- Rows of period `t`, in frame order. -/
def block (df : List (Obs ι β)) (t : ℤ) : List (Obs ι β) := df.filter fun r => r.t = t

theorem periodsOf_pairwise (df : List (Obs ι β)) : (periodsOf df).Pairwise (· < ·) := by
  have h1 : (periodsOf df).Pairwise (· ≤ ·) := List.pairwise_insertionSort _ _
  have h2 : (periodsOf df).Nodup :=
    (List.perm_insertionSort _ _).nodup_iff.2 (List.nodup_dedup _)
  exact (h1.and h2).imp fun h => lt_of_le_of_ne h.1 h.2

theorem mem_periodsOf {df : List (Obs ι β)} {t : ℤ} : t ∈ periodsOf df ↔ IsPeriod df t := by
  unfold periodsOf
  rw [List.mem_insertionSort, List.mem_dedup, mem_times]

theorem sorted_eq_blocks {df : List (Obs ι β)} (hs : df.Pairwise leTGI) (hn : NoDuplicates df) :
    df = (periodsOf df).flatMap (block df) := by
  have hp : ((periodsOf df).flatMap (block df)).Perm df := by
    refine (flatMap_filter_perm (fun r : Obs ι β => r.t) df _
      ((periodsOf_pairwise df).imp fun h => ne_of_lt h)).trans (List.Perm.of_eq ?_)
    rw [List.filter_eq_self]
    intro r hr
    exact decide_eq_true (mem_periodsOf.2 ⟨r, hr, rfl⟩)
  refine List.Perm.eq_of_pairwise (le := leTGI) ?_ hs ?_ hp.symm
  · intro a b ha hb hab hba
    exact leTGI_antisymm hn ha (hp.mem_iff.1 hb) hab hba
  · rw [List.pairwise_flatMap]
    refine ⟨fun t _ => hs.sublist List.filter_sublist, ?_⟩
    refine (periodsOf_pairwise df).imp ?_
    intro t t' htt' r hr s hs'
    simp only [block, List.mem_filter, decide_eq_true_eq] at hr hs'
    left; omega

/-- Order of units inside a period. -/
def leGI (a b : WithTop ℤ × ι) : Prop := a.1 < b.1 ∨ (a.1 = b.1 ∧ a.2 ≤ b.2)

theorem block_keys_pairwise {df : List (Obs ι β)} (hs : df.Pairwise leTGI) (t : ℤ) :
    ((block df t).map fun r => (cohort r, r.id)).Pairwise leGI := by
  rw [List.pairwise_map]
  have := hs.sublist (List.filter_sublist (p := fun r => decide (r.t = t)))
  refine List.Pairwise.imp_of_mem ?_ this
  intro a b ha hb hab
  have ha2 : a.t = t := by simpa using (List.mem_filter.1 ha).2
  have hb2 : b.t = t := by simpa using (List.mem_filter.1 hb).2
  rcases hab with h | h
  · rw [ha2, hb2] at h; exact absurd h (lt_irrefl _)
  · exact h.2

theorem block_keys_nodup {df : List (Obs ι β)} (hn : NoDuplicates df) (t : ℤ) :
    ((block df t).map fun r => r.id).Nodup := by
  have h : NoDuplicates (block df t) := hn.filter _
  rw [List.Nodup, List.pairwise_map]
  refine List.Pairwise.imp_of_mem ?_ h
  intro a b ha hb hab heq
  simp only [block, List.mem_filter, decide_eq_true_eq] at ha hb
  exact hab ⟨heq, ha.2.trans hb.2.symm⟩

theorem block_keys_eq {df : List (Obs ι β)} (hs : df.Pairwise leTGI) (hn : NoDuplicates df)
    (hb : Balanced df) (hc : CohortConstant df) {t t' : ℤ} (ht : IsPeriod df t) (ht' : IsPeriod df t') :
    ((block df t).map fun r => (cohort r, r.id)) = (block df t').map fun r => (cohort r, r.id) := by
  have hnd : ∀ t, ((block df t).map fun r => (cohort r, r.id)).Nodup := fun t =>
    List.Nodup.of_map (fun p : WithTop ℤ × ι => p.2) (by
      rw [List.map_map]; exact block_keys_nodup hn t)
  have hsub : ∀ t t', IsPeriod df t' → ∀ x, x ∈ ((block df t).map fun r => (cohort r, r.id)) →
      x ∈ ((block df t').map fun r => (cohort r, r.id)) := by
    intro t t' ht' x hx
    obtain ⟨r, hr, rfl⟩ := List.mem_map.1 hx
    simp only [block, List.mem_filter, decide_eq_true_eq] at hr
    obtain ⟨s, hs, h1, h2⟩ := hb r.id ⟨r, hr.1, rfl⟩ t' ht'
    refine List.mem_map.2 ⟨s, ?_, ?_⟩
    · simp [block, hs, h2]
    · rw [hc s hs r hr.1 h1, h1]
  have hp : ((block df t).map fun r => (cohort r, r.id)).Perm ((block df t').map fun r => (cohort r, r.id)) := by
    rw [List.perm_ext_iff_of_nodup (hnd t) (hnd t')]
    exact fun x => ⟨hsub t t' ht' x, hsub t' t ht x⟩
  refine List.Perm.eq_of_pairwise (le := leGI) ?_ (block_keys_pairwise hs t) (block_keys_pairwise hs t') hp
  intro a b _ _ hab hba
  rcases hab with hab | hab <;> rcases hba with hba | hba
  · exact absurd (hab.trans hba) (lt_irrefl _)
  · rw [hba.1] at hab; exact absurd hab (lt_irrefl _)
  · rw [hab.1] at hba; exact absurd hba (lt_irrefl _)
  · exact Prod.ext hab.1 (le_antisymm hab.2 hba.2)

theorem uniqStable_append {α : Type*} [DecidableEq α] {U rest : List α} (hU : U.Nodup)
    (h : ∀ x ∈ rest, x ∈ U) : uniqStable (U ++ rest) = U := by
  unfold uniqStable
  rw [List.reverse_append]
  induction rest using List.reverseRecOn with
  | nil => simp [List.dedup_eq_self.2 (List.nodup_reverse.2 hU)]
  | append_singleton l a ih =>
    rw [List.reverse_append, List.reverse_singleton, List.singleton_append, List.cons_append,
      List.dedup_cons_of_mem]
    · exact ih fun x hx => h x (by simp [hx])
    · rw [List.mem_append, List.mem_reverse, List.mem_reverse]
      exact Or.inr (h a (by simp))

theorem timeInvariant_ids (df : List (Obs ι β)) :
    (timeInvariant df).map Row.id = uniqStable (df.map Row.id) := by
  unfold timeInvariant
  have hmem : ∀ u ∈ uniqStable (df.map Row.id), u ∈ df.map Row.id := by
    intro u hu; simpa [uniqStable] using hu
  generalize uniqStable (df.map Row.id) = l at hmem ⊢
  induction l with
  | nil => rfl
  | cons u l ih =>
    have hu := hmem u (by simp)
    obtain ⟨r, hr, hru⟩ := List.mem_map.1 hu
    have hsome : (df.find? fun r => r.id = u).isSome := by
      rw [List.find?_isSome]; exact ⟨r, hr, by simp [hru]⟩
    obtain ⟨s, hs⟩ := Option.isSome_iff_exists.1 hsome
    rw [List.filterMap_cons, hs, List.map_cons, ih fun x hx => hmem x (by simp [hx])]
    have := List.find?_some hs
    rw [decide_eq_true_eq] at this
    rw [this]

theorem mem_timeInvariant {df : List (Obs ι β)} {r : Obs ι β} (h : r ∈ timeInvariant df) : r ∈ df := by
  unfold timeInvariant at h
  obtain ⟨u, _, hu⟩ := List.mem_filterMap.1 h
  exact List.mem_of_find?_eq_some hu

theorem slice_flatten {α : Type*} (n : ℕ) : ∀ (L : List (List α)), (∀ l ∈ L, l.length = n) →
    ∀ i (hi : i < L.length), ((L.flatten.drop (i * n)).take n) = L[i]
  | [], _, i, hi => by simp at hi
  | l :: L, h, 0, _ => by
    have : l.length = n := h l (by simp)
    simp [← this]
  | l :: L, h, i + 1, hi => by
    have hl : l.length = n := h l (by simp)
    have := slice_flatten n L (fun l hl => h l (by simp [hl])) i (by simpa using hi)
    rw [show (i + 1) * n = l.length + i * n by rw [hl]; ring, List.flatten_cons, List.drop_append]
    rw [List.drop_eq_nil_of_le (by omega)]; simpa using this


/-- In a sorted balanced panel every block has `idCount` rows. -/
theorem block_length {df : List (Obs ι β)} (hn : NoDuplicates df) (hb : Balanced df) {t : ℤ}
    (ht : IsPeriod df t) : (block df t).length = idCount df := by
  have h : ((block df t).map Row.id).Perm (df.map Row.id).dedup := by
    rw [List.perm_ext_iff_of_nodup (block_keys_nodup hn t) (List.nodup_dedup _)]
    intro u
    rw [List.mem_dedup]
    constructor
    · intro hu
      obtain ⟨r, hr, rfl⟩ := List.mem_map.1 hu
      exact List.mem_map.2 ⟨r, (List.mem_filter.1 hr).1, rfl⟩
    · intro hu
      obtain ⟨r, hr, hru⟩ := List.mem_map.1 hu
      obtain ⟨s, hs, h1, h2⟩ := hb u ⟨r, hr, hru⟩ t ht
      exact List.mem_map.2 ⟨s, by simp [block, hs, h2], h1⟩
  have := h.length_eq
  rw [List.length_map] at this
  rw [this]; rfl

/-- Slice `i` of the sorted frame is the block of period `i`. -/
theorem slice_eq_block {df : List (Obs ι β)} (hs : df.Pairwise leTGI) (hn : NoDuplicates df)
    (hb : Balanced df) (i : ℕ) (hi : i < (periodsOf df).length) :
    (df.drop (i * idCount df)).take (idCount df) = block df (periodsOf df)[i] := by
  have h := slice_flatten (idCount df) ((periodsOf df).map (block df)) (by
    intro l hl
    obtain ⟨t, ht, rfl⟩ := List.mem_map.1 hl
    exact block_length hn hb (mem_periodsOf.1 ht)) i (by simpa using hi)
  rw [← List.flatMap_def, ← sorted_eq_blocks hs hn] at h
  rw [h, List.getElem_map]

/-- The (cohort, id) columns of the time-invariant table are those of any period's block. -/
theorem timeInvariant_keys {df : List (Obs ι β)} (hs : df.Pairwise leTGI) (hn : NoDuplicates df)
    (hb : Balanced df) (hc : CohortConstant df) {t : ℤ} (ht : IsPeriod df t) :
    ((timeInvariant df).map fun r => (cohort r, r.id)) = (block df t).map fun r => (cohort r, r.id) := by
  have hids : (timeInvariant df).map Row.id = (block df t).map Row.id := by
    rw [timeInvariant_ids]
    have hne : periodsOf df ≠ [] := List.ne_nil_of_mem (mem_periodsOf.2 ht)
    obtain ⟨p, ps, hps⟩ := List.exists_cons_of_ne_nil hne
    have hp : IsPeriod df p := mem_periodsOf.1 (by simp [hps])
    have h1 := sorted_eq_blocks hs hn
    rw [hps, List.flatMap_cons] at h1
    have h2 : df.map Row.id = (block df p).map Row.id ++ ((ps.flatMap (block df)).map Row.id) := by
      conv_lhs => rw [h1]
      rw [List.map_append]
    rw [h2, uniqStable_append (block_keys_nodup hn p)]
    · have := congrArg (List.map Prod.snd) (block_keys_eq hs hn hb hc hp ht)
      simpa [List.map_map, Function.comp_def] using this
    · intro u hu
      obtain ⟨r, hr, rfl⟩ := List.mem_map.1 hu
      have hrd : r ∈ df := by rw [h1]; exact List.mem_append_right _ hr
      obtain ⟨s, hs, h1, h2⟩ := hb r.id ⟨r, hrd, rfl⟩ p hp
      exact List.mem_map.2 ⟨s, by simp [block, hs, h2], h1⟩
  apply List.ext_getElem
  · simpa using congrArg List.length hids
  · intro k h1 h2
    simp only [List.length_map] at h1 h2
    rw [List.getElem_map, List.getElem_map]
    have hid : (timeInvariant df)[k].id = (block df t)[k].id := by
      have := List.getElem_of_eq hids (by simpa using h1)
      simpa using this
    refine Prod.ext ?_ hid
    exact hc _ (mem_timeInvariant (List.getElem_mem h1)) _
      (List.mem_filter.1 (List.getElem_mem h2)).1 hid

/-- **C18.** For a sorted, balanced, duplicate-free panel with time-invariant cohorts: there is one outcome vector
per period, in period order; the time-invariant table has one row per unit (each once); and entry `k` of the
vector of the `i`-th period is the outcome of the unit in row `k` of that table, observed in the `i`-th period. -/
theorem C18_outcomes_aligned {K : Type*} (y : β → K) {df : List (Obs ι β)} (hs : df.Pairwise leTGI)
    (hn : NoDuplicates df) (hb : Balanced df) (hc : CohortConstant df) :
    (outcomesTensor y df).length = (periodsOf df).length ∧
    (periodsOf df).Pairwise (· < ·) ∧ (∀ t, t ∈ periodsOf df ↔ IsPeriod df t) ∧
    ((timeInvariant df).map Row.id).Nodup ∧ (∀ u, u ∈ (timeInvariant df).map Row.id ↔ IsUnit df u) ∧
    ∀ i (hi : i < (periodsOf df).length), ∃ v, (outcomesTensor y df)[i]? = some v ∧
      v.length = (timeInvariant df).length ∧
      ∀ k (hk : k < (timeInvariant df).length), ∃ r ∈ df, r.id = (timeInvariant df)[k].id ∧
        r.t = (periodsOf df)[i] ∧ v[k]? = some (y r.val.2) := by
  refine ⟨by simp [outcomesTensor], periodsOf_pairwise df, fun t => mem_periodsOf, ?_, ?_, ?_⟩
  · rw [timeInvariant_ids]; unfold uniqStable; exact List.nodup_reverse.2 (List.nodup_dedup _)
  · intro u
    rw [timeInvariant_ids]
    unfold uniqStable
    rw [List.mem_reverse, List.mem_dedup, List.mem_reverse, List.mem_map]
    rfl
  · intro i hi
    have ht : IsPeriod df (periodsOf df)[i] := mem_periodsOf.1 (List.getElem_mem hi)
    have hk := timeInvariant_keys hs hn hb hc ht
    have hlen : (block df (periodsOf df)[i]).length = (timeInvariant df).length := by
      simpa using (congrArg List.length hk).symm
    refine ⟨(block df (periodsOf df)[i]).map fun r => y r.val.2, ?_, by simpa using hlen, ?_⟩
    · simp only [outcomesTensor, List.getElem?_map, List.getElem?_range hi, Option.map_some]
      rw [slice_eq_block hs hn hb i hi]
    · intro k hk1
      have hk2 : k < (block df (periodsOf df)[i]).length := by omega
      refine ⟨(block df (periodsOf df)[i])[k], (List.mem_filter.1 (List.getElem_mem hk2)).1, ?_, ?_, ?_⟩
      · have := List.getElem_of_eq hk (by simpa using hk1)
        rw [List.getElem_map, List.getElem_map] at this
        exact (congrArg Prod.snd this).symm
      · simpa using (List.mem_filter.1 (List.getElem_mem hk2)).2
      · simp [hk2]

/-- **C18, end to end.** The data produced by the preprocessing pipeline from a balanced, duplicate-free panel
with time-invariant cohorts is aligned. -/
theorem C18_pipeline_aligned {K : Type*} (y : β → K) (cg : ControlGroup) (a : ℤ) (df out : List (Obs ι β))
    (hnd : NoDuplicates df) (hbal : Balanced df) (hcc : CohortConstant df)
    (hout : pipeline cg a df = some out) :
    (outcomesTensor y out).length = (periodsOf out).length ∧
    ∀ i (hi : i < (periodsOf out).length), ∃ v, (outcomesTensor y out)[i]? = some v ∧
      v.length = (timeInvariant out).length ∧
      ∀ k (hk : k < (timeInvariant out).length), ∃ r ∈ out, r.id = (timeInvariant out)[k].id ∧
        r.t = (periodsOf out)[i] ∧ v[k]? = some (y r.val.2) := by
  obtain ⟨_, _, _, _, hb, hn, hc, _⟩ := pipeline_balanced cg a df out hnd hbal hcc hout
  have hs : out.Pairwise leTGI := by
    unfold pipeline at hout
    obtain ⟨o, _, rfl⟩ := Option.map_eq_some_iff.1 hout
    exact sortTGI_pairwise o
  obtain ⟨h1, _, _, _, _, h6⟩ := C18_outcomes_aligned y hs hn hb hc
  exact ⟨h1, h6⟩

/-- **C18, the consequence users rely on.** Entry-wise differences of two outcome vectors are within-unit
differences. -/
theorem C18_differences_within_unit {K : Type*} [Sub K] (y : β → K) {df : List (Obs ι β)}
    (hs : df.Pairwise leTGI) (hn : NoDuplicates df) (hb : Balanced df) (hc : CohortConstant df)
    (i j : ℕ) (hi : i < (periodsOf df).length) (hj : j < (periodsOf df).length) (k : ℕ)
    (hk : k < (timeInvariant df).length) :
    ∃ v w r s, (outcomesTensor y df)[i]? = some v ∧ (outcomesTensor y df)[j]? = some w ∧ r ∈ df ∧ s ∈ df ∧
      r.id = s.id ∧ r.t = (periodsOf df)[i] ∧ s.t = (periodsOf df)[j] ∧
      (List.zipWith (· - ·) v w)[k]? = some (y r.val.2 - y s.val.2) := by
  obtain ⟨_, _, _, _, _, h⟩ := C18_outcomes_aligned y hs hn hb hc
  obtain ⟨v, hv, _, hv2⟩ := h i hi
  obtain ⟨w, hw, _, hw2⟩ := h j hj
  obtain ⟨r, hr, hr1, hr2, hr3⟩ := hv2 k hk
  obtain ⟨s, hs, hs1, hs2, hs3⟩ := hw2 k hk
  exact ⟨v, w, r, s, hv, hw, hr, hs, hr1.trans hs1.symm, hr2, hs2, by
    rw [List.getElem?_zipWith, hr3, hs3]⟩

example : (pipeline .notYetTreated 0 [⟨2, 2, (2, 22)⟩, ⟨1, 1, (0, 11)⟩, ⟨2, 1, (2, 21)⟩, ⟨1, 2, (0, 12)⟩]).map
    (fun df : List (Obs ℕ ℕ) => (outcomesTensor id df, (timeInvariant df).map Row.id)) =
      some ([[21, 11], [22, 12]], [2, 1]) := by decide

end Verif.Prep
