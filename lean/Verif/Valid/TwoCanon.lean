import Verif.Valid.Two

set_option linter.unusedSectionVars false

/-!
# A closed form for the two-period build

`twoBuild` (`Verif.Valid.TwoModel`) sorts, joins and filters several times; on data with two periods its result is simply
the list of the rows of complete units in order of their ids.
-/

namespace Verif.Valid

open Verif.Panel

variable {ι β : Type*} [LinearOrder ι]

/-- Rows of period `t` of the units observed once in each of the two periods, in order of unit id. -/
def complete (df : List (Row ι ℤ β)) (t0 t1 t : ℤ) : List (Row ι ℤ β) :=
  (df.filter fun r => r.t = t ∧ obsCount df r.id t0 = 1 ∧ obsCount df r.id t1 = 1).insertionSort leId

theorem sort_eq {l m : List (Row ι ℤ β)} (h : l.Perm m) (nd : (l.map Row.id).Nodup) :
    l.insertionSort leId = m.insertionSort leId := by
  have hp : (l.insertionSort leId).Perm (m.insertionSort leId) :=
    ((List.perm_insertionSort leId l).trans h).trans (List.perm_insertionSort leId m).symm
  have nd' : ((m.insertionSort leId).map Row.id).Nodup :=
    (((List.perm_insertionSort leId m).trans h.symm).map Row.id).nodup_iff.2 nd
  refine hp.eq_of_pairwise (le := leId) ?_ (List.pairwise_insertionSort leId _) (List.pairwise_insertionSort leId _)
  intro r s hr hs h1 h2
  rw [hp.mem_iff] at hr
  exact List.inj_on_of_nodup_map nd' hr hs (le_antisymm h1 h2)

theorem complete_raw_nodup (df : List (Row ι ℤ β)) (t0 t1 t : ℤ) (ht : t = t0 ∨ t = t1) :
    ((df.filter fun r => r.t = t ∧ obsCount df r.id t0 = 1 ∧ obsCount df r.id t1 = 1).map Row.id).Nodup := by
  rw [List.nodup_iff_count_le_one]
  intro u
  rw [count_map_id, List.filter_filter]
  by_cases hu : obsCount df u t0 = 1 ∧ obsCount df u t1 = 1
  · have h1 : obsCount df u t = 1 := by rcases ht with rfl | rfl <;> tauto
    rw [← h1]
    unfold obsCount
    apply List.Sublist.length_le
    apply List.monotone_filter_right
    intro r hr
    simp only [Bool.and_eq_true, decide_eq_true_eq] at hr ⊢
    exact ⟨hr.1, hr.2.1⟩
  · rw [List.length_eq_zero_iff.2]
    · omega
    · rw [List.filter_eq_nil_iff]
      intro r _ hr
      simp only [Bool.and_eq_true, decide_eq_true_eq] at hr
      exact hu (hr.1 ▸ hr.2.2)

theorem complete_nodup (df : List (Row ι ℤ β)) (t0 t1 t : ℤ) (ht : t = t0 ∨ t = t1) :
    ((complete df t0 t1 t).map Row.id).Nodup :=
  ((List.perm_insertionSort leId _).map Row.id).nodup_iff.2 (complete_raw_nodup df t0 t1 t ht)

theorem mem_complete {df : List (Row ι ℤ β)} {t0 t1 t : ℤ} {r : Row ι ℤ β} :
    r ∈ complete df t0 t1 t ↔ r ∈ df ∧ r.t = t ∧ obsCount df r.id t0 = 1 ∧ obsCount df r.id t1 = 1 := by
  unfold complete
  rw [(List.perm_insertionSort leId _).mem_iff]
  simp

theorem mem_complete_ids {df : List (Row ι ℤ β)} {t0 t1 t : ℤ} (ht : t = t0 ∨ t = t1) (u : ι) :
    u ∈ (complete df t0 t1 t).map Row.id ↔ obsCount df u t0 = 1 ∧ obsCount df u t1 = 1 := by
  rw [List.mem_map]
  constructor
  · rintro ⟨r, hr, rfl⟩
    exact (mem_complete.1 hr).2.2
  · intro h
    have : 0 < obsCount df u t := by rcases ht with rfl | rfl <;> omega
    obtain ⟨r, hr, rfl, hrt⟩ := mem_obsCount.1 this
    exact ⟨r, mem_complete.2 ⟨hr, hrt, h⟩, rfl⟩

theorem complete_ids_eq (df : List (Row ι ℤ β)) (t0 t1 : ℤ) :
    (complete df t0 t1 t1).map Row.id = (complete df t0 t1 t0).map Row.id := by
  apply eq_of_sorted_nodup (sorted_ids_of_leId _) (sorted_ids_of_leId _)
  · exact complete_nodup df t0 t1 t1 (Or.inr rfl)
  · exact complete_nodup df t0 t1 t0 (Or.inl rfl)
  · intro u
    exact (mem_complete_ids (Or.inr rfl) u).trans (mem_complete_ids (Or.inl rfl) u).symm

theorem complete_perm {df df' : List (Row ι ℤ β)} (h : df.Perm df') (t0 t1 t : ℤ) (ht : t = t0 ∨ t = t1) :
    complete df t0 t1 t = complete df' t0 t1 t := by
  unfold complete
  have e : (df'.filter fun r => r.t = t ∧ obsCount df' r.id t0 = 1 ∧ obsCount df' r.id t1 = 1) =
      df'.filter fun r => r.t = t ∧ obsCount df r.id t0 = 1 ∧ obsCount df r.id t1 = 1 := by
    apply List.filter_congr
    intro r _
    rw [obsCount_perm h r.id t0, obsCount_perm h r.id t1]
  rw [e]
  exact sort_eq (h.filter _) (complete_raw_nodup df t0 t1 t ht)

theorem sortedTimes_perm {df df' : List (Row ι ℤ β)} (h : df.Perm df') : sortedTimes df = sortedTimes df' := by
  unfold sortedTimes
  have hp : ((df.map Row.t).dedup).Perm ((df'.map Row.t).dedup) := by
    rw [List.perm_ext_iff_of_nodup (List.nodup_dedup _) (List.nodup_dedup _)]
    intro t
    rw [List.mem_dedup, List.mem_dedup, (h.map Row.t).mem_iff]
  have hp' := ((List.perm_insertionSort (· ≤ ·) ((df.map Row.t).dedup)).trans hp).trans
    (List.perm_insertionSort (· ≤ ·) ((df'.map Row.t).dedup)).symm
  exact hp'.eq_of_pairwise (fun a b _ _ h1 h2 => le_antisymm h1 h2) (List.pairwise_insertionSort _ _)
    (List.pairwise_insertionSort _ _)

theorem nUnique_perm {A : Type*} [DecidableEq A] {l m : List A} (h : l.Perm m) : nUnique l = nUnique m := by
  unfold nUnique
  apply List.Perm.length_eq
  rw [List.perm_ext_iff_of_nodup (List.nodup_dedup _) (List.nodup_dedup _)]
  intro t
  rw [List.mem_dedup, List.mem_dedup, h.mem_iff]

theorem makeBalanced_perm {df df' : List (Row ι ℤ β)} (h : df.Perm df') : (makeBalanced df).Perm (makeBalanced df') := by
  rw [makeBalanced_eq_filter, makeBalanced_eq_filter]
  have e : (df'.filter fun r => decide ((df'.filter fun s => s.id = r.id).length = nUnique (df'.map Row.t))) =
      df'.filter fun r => decide ((df.filter fun s => s.id = r.id).length = nUnique (df.map Row.t)) := by
    apply List.filter_congr
    intro r _
    rw [(h.filter _).length_eq, nUnique_perm (h.map Row.t)]
  rw [e]
  exact h.filter _

/-- The two lists of the build when the balanced data have the two periods. -/
theorem twoBuild_eq {γ : Type*} [DecidableEq γ] (key : β → γ) (df : List (Row ι ℤ β)) (t0 t1 : ℤ) (hlt : t0 < t1)
    (hall : ∀ r ∈ df, r.t = t0 ∨ r.t = t1) (h2 : nUnique (df.map Row.t) = 2)
    (hb : sortedTimes (makeBalanced df) = [t0, t1]) :
    twoBuild key df =
      if (complete df t0 t1 t1).map (fun r => key r.val) = (complete df t0 t1 t0).map (fun r => key r.val) then
        some ⟨complete df t0 t1 t1, complete df t0 t1 t0, (complete df t0 t1 t1).length⟩ else none := by
  -- membership in the balanced data
  have hkeep : ∀ r : Row ι ℤ β, r ∈ df → (((df.filter fun s => s.id = r.id).length = nUnique (df.map Row.t)) ↔
      obsCount df r.id t0 + obsCount df r.id t1 = 2) := by
    intro r _
    rw [unit_split hlt.ne hall, h2]
  have hcnt : ∀ u t, obsCount (makeBalanced df) u t =
      if obsCount df u t0 + obsCount df u t1 = 2 then obsCount df u t else 0 := by
    intro u t
    by_cases hu : obsCount df u t0 + obsCount df u t1 = 2
    · rw [if_pos hu]
      apply balanced_obsCount
      rw [unit_split hlt.ne hall, h2, hu]
    · rw [if_neg hu]
      by_contra hne
      have := balanced_obsCount_le df u t (Nat.pos_of_ne_zero hne)
      rw [unit_split hlt.ne hall, h2] at this
      exact hu this
  -- any list of common units
  have key2 : ∀ (d : List (Row ι ℤ β)) (common : List ι) (t : ℤ), t = t0 ∨ t = t1 → d.Perm (makeBalanced df) →
      (∀ u, u ∈ common ↔ obsCount df u t0 = 1 ∧ obsCount df u t1 = 1) →
      (ofUnits common (atTime d t)).insertionSort leId = complete df t0 t1 t := by
    intro d common t ht hd hc
    symm
    apply sort_eq _ (complete_raw_nodup df t0 t1 t ht)
    unfold ofUnits atTime
    have h1 : (df.filter fun r => decide (r.t = t ∧ obsCount df r.id t0 = 1 ∧ obsCount df r.id t1 = 1)) =
        ((makeBalanced df).filter fun r => decide (r.t = t)).filter fun r => decide (r.id ∈ common) := by
      rw [makeBalanced_eq_filter, List.filter_filter, List.filter_filter]
      apply List.filter_congr
      intro r hr
      have hk := hkeep r hr
      have hcr := hc r.id
      rw [Bool.eq_iff_iff]
      simp only [decide_eq_true_eq, Bool.and_eq_true]
      rw [hcr]
      constructor
      · rintro ⟨a, b, c⟩
        exact ⟨⟨⟨b, c⟩, a⟩, hk.2 (by omega)⟩
      · rintro ⟨⟨⟨b, c⟩, a⟩, _⟩
        exact ⟨a, b, c⟩
    rw [h1]
    exact ((hd.symm.filter _).filter _)
  have hmem : ∀ (d : List (Row ι ℤ β)) (t : ℤ), d.Perm (makeBalanced df) → ∀ u,
      (∃ r ∈ atTime d t, r.id = u) ↔ 0 < obsCount (makeBalanced df) u t := by
    intro d t hd u
    rw [← obsCount_perm hd, mem_obsCount]
    unfold atTime
    simp only [List.mem_filter, decide_eq_true_eq]
    constructor
    · rintro ⟨r, ⟨hr, ht⟩, hu⟩; exact ⟨r, hr, hu, ht⟩
    · rintro ⟨r, hr, hu, ht⟩; exact ⟨r, ⟨hr, ht⟩, hu⟩
  have hboth : ∀ u, (0 < obsCount (makeBalanced df) u t1 ∧ 0 < obsCount (makeBalanced df) u t0) ↔
      obsCount df u t0 = 1 ∧ obsCount df u t1 = 1 := by
    intro u
    rw [hcnt, hcnt]
    constructor
    · rintro ⟨h1, h0⟩
      split_ifs at h1 h0 with h
      · omega
      · omega
    · rintro ⟨h0, h1⟩
      rw [if_pos (by omega), if_pos (by omega)]
      omega
  have hdp : ((makeBalanced df).insertionSort leIT).Perm (makeBalanced df) := List.perm_insertionSort _ _
  have hcommon : ∀ u, u ∈ joinIds (atTime ((makeBalanced df).insertionSort leIT) t1)
      (atTime ((makeBalanced df).insertionSort leIT) t0) ↔ obsCount df u t0 = 1 ∧ obsCount df u t1 = 1 := by
    intro u
    rw [mem_joinIds, hmem _ _ hdp, hmem _ _ hdp, hboth]
  have hinv : invariant key (makeBalanced df) t0 t1 =
      decide ((complete df t0 t1 t0).map (fun r => key r.val) = (complete df t0 t1 t1).map (fun r => key r.val)) := by
    unfold invariant
    dsimp only
    have hc : ∀ u, u ∈ (((atTime (makeBalanced df) t0).insertionSort leId).map Row.id).filter
        (fun u => decide (u ∈ ((atTime (makeBalanced df) t1).insertionSort leId).map Row.id)) ↔
        obsCount df u t0 = 1 ∧ obsCount df u t1 = 1 := by
      intro u
      rw [← hboth, ← hmem _ t1 (List.Perm.refl _), ← hmem _ t0 (List.Perm.refl _)]
      simp only [List.mem_filter, decide_eq_true_eq, List.mem_map, (List.perm_insertionSort _ _).mem_iff]
      exact and_comm
    have hl : ∀ t, t = t0 ∨ t = t1 → (ofUnits ((((atTime (makeBalanced df) t0).insertionSort leId).map Row.id).filter
        (fun u => decide (u ∈ ((atTime (makeBalanced df) t1).insertionSort leId).map Row.id)))
        ((atTime (makeBalanced df) t).insertionSort leId)).insertionSort leId = complete df t0 t1 t := by
      intro t ht
      rw [← key2 (makeBalanced df) _ t ht (List.Perm.refl _) hc]
      symm
      apply sort_eq
      · unfold ofUnits
        exact (List.perm_insertionSort _ _).symm.filter _
      · apply ofUnits_nodup
        intro u hu
        have hu' := (hc u).1 hu
        rw [atTime_count, hcnt, if_pos (by omega)]
        rcases ht with rfl | rfl <;> omega
    rw [hl t0 (Or.inl rfl), hl t1 (Or.inr rfl)]
  have hunf : twoBuild key df = if invariant key (makeBalanced df) t0 t1 = true then
      some ⟨(ofUnits (joinIds (atTime ((makeBalanced df).insertionSort leIT) t1)
        (atTime ((makeBalanced df).insertionSort leIT) t0)) (atTime ((makeBalanced df).insertionSort leIT) t1)).insertionSort leId,
        (ofUnits (joinIds (atTime ((makeBalanced df).insertionSort leIT) t1)
        (atTime ((makeBalanced df).insertionSort leIT) t0)) (atTime ((makeBalanced df).insertionSort leIT) t0)).insertionSort leId,
        (joinIds (atTime ((makeBalanced df).insertionSort leIT) t1)
        (atTime ((makeBalanced df).insertionSort leIT) t0)).length⟩ else none := by
    unfold twoBuild
    dsimp only
    rw [hb]
  rw [key2 _ _ t1 (Or.inr rfl) hdp hcommon, key2 _ _ t0 (Or.inl rfl) hdp hcommon, hinv] at hunf
  by_cases hk : (complete df t0 t1 t1).map (fun r => key r.val) = (complete df t0 t1 t0).map (fun r => key r.val)
  · rw [if_pos hk, hunf]
    rw [if_pos (by rw [decide_eq_true_eq]; exact hk.symm)] at hunf ⊢
    obtain ⟨_, _, _, _, hP, _⟩ := twoBuild_spec key df _ h2 hunf
    have hs := hP.size
    dsimp only at hs
    rw [hs]
  · rw [if_neg hk, hunf, if_neg]
    rw [decide_eq_true_eq]
    exact fun h => hk h.symm

/-- The balanced data have two periods as soon as one unit is complete. -/
theorem sortedTimes_balanced (df : List (Row ι ℤ β)) (t0 t1 : ℤ) (hlt : t0 < t1)
    (hall : ∀ r ∈ df, r.t = t0 ∨ r.t = t1) (h2 : nUnique (df.map Row.t) = 2) (u : ι)
    (hu : obsCount df u t0 = 1 ∧ obsCount df u t1 = 1) : sortedTimes (makeBalanced df) = [t0, t1] := by
  have hk : (df.filter fun r => r.id = u).length = nUnique (df.map Row.t) := by
    rw [unit_split hlt.ne hall, h2, hu.1, hu.2]
  have hm : ∀ t, t ∈ (makeBalanced df).map Row.t ↔ t = t0 ∨ t = t1 := by
    intro t
    rw [List.mem_map]
    constructor
    · rintro ⟨r, hr, rfl⟩
      exact hall r (mem_makeBalanced.1 hr).1
    · intro ht
      have : 0 < obsCount (makeBalanced df) u t := by
        rw [balanced_obsCount df u t hk]
        rcases ht with rfl | rfl <;> omega
      obtain ⟨r, hr, _, hrt⟩ := mem_obsCount.1 this
      exact ⟨r, hr, hrt⟩
  have hp : (((makeBalanced df).map Row.t).dedup).Perm [t0, t1] := by
    rw [List.perm_ext_iff_of_nodup (List.nodup_dedup _) (by simp [hlt.ne])]
    intro t
    rw [List.mem_dedup, hm]
    simp
  unfold sortedTimes
  exact ((List.perm_insertionSort _ _).trans hp).eq_of_pairwise (fun a b _ _ h1 h2 => le_antisymm h1 h2)
    (List.pairwise_insertionSort _ _) (by simp [hlt.le])

/-- The order of the rows does not matter for the two-period build. -/
theorem twoBuild_perm {γ : Type*} [DecidableEq γ] (key : β → γ) {df df' : List (Row ι ℤ β)} (h : df.Perm df')
    (h2 : nUnique (df.map Row.t) = 2) : twoBuild key df = twoBuild key df' := by
  have h2' : nUnique (df'.map Row.t) = 2 := by rw [← nUnique_perm (h.map Row.t)]; exact h2
  have hst := sortedTimes_perm (makeBalanced_perm h)
  by_cases hb : ∃ t0 t1, sortedTimes (makeBalanced df) = [t0, t1]
  · obtain ⟨t0, t1, hb⟩ := hb
    obtain ⟨hlt, hper⟩ := sortedTimes_two hb
    have hall : ∀ r ∈ df, r.t = t0 ∨ r.t = t1 := by
      intro r hr
      have hsub : [t0, t1] ⊆ (df.map Row.t).dedup := by
        intro t ht
        rw [List.mem_dedup]
        have : t ∈ (makeBalanced df).map Row.t := (hper t).2 (by simpa using ht)
        rw [List.mem_map] at this ⊢
        obtain ⟨s, hs, rfl⟩ := this
        exact ⟨s, (mem_makeBalanced.1 hs).1, rfl⟩
      have hnd : ([t0, t1] : List ℤ).Nodup := by simp [hlt.ne]
      have hlen : ((df.map Row.t).dedup).length ≤ ([t0, t1] : List ℤ).length := by
        unfold nUnique at h2; rw [h2]; simp
      have hperm := (List.subperm_of_subset hnd hsub).perm_of_length_le hlen
      have : r.t ∈ (df.map Row.t).dedup := List.mem_dedup.2 (List.mem_map.2 ⟨r, hr, rfl⟩)
      rw [← hperm.mem_iff] at this
      simpa using this
    have hall' : ∀ r ∈ df', r.t = t0 ∨ r.t = t1 := fun r hr => hall r (h.mem_iff.2 hr)
    rw [twoBuild_eq key df t0 t1 hlt hall h2 hb, twoBuild_eq key df' t0 t1 hlt hall' h2' (hst ▸ hb),
      complete_perm h t0 t1 t1 (Or.inr rfl), complete_perm h t0 t1 t0 (Or.inl rfl)]
  · have e : ∀ (l : List (Row ι ℤ β)), (¬ ∃ t0 t1, sortedTimes (makeBalanced l) = [t0, t1]) → twoBuild key l = none := by
      intro l hl
      unfold twoBuild
      dsimp only
      split
      · rename_i a b hab
        exact absurd ⟨a, b, hab⟩ hl
      · rfl
    rw [e df hb, e df' (by rw [← hst]; exact hb)]

end Verif.Valid
