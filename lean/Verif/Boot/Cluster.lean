import Verif.Boot.Model
import Mathlib.Tactic.Ring
import Mathlib.Tactic.Linarith
import Mathlib.Tactic.NormNum
import Mathlib.Algebra.Field.Rat
import Mathlib.Algebra.BigOperators.Group.List.Basic

/-!
# Cluster aggregation (C41)

`np.unique` + sums per label in the interpreted code, a lookup table in the compiled code.
-/

set_option linter.unusedSectionVars false
set_option linter.unusedSimpArgs false

namespace Verif.Boot

variable {K : Type*} [Field K]

/-! ## Specification -/

/-- The sum of the entries of `x` whose unit carries label `c`. -/
def labelSum {α : Type*} [DecidableEq α] (x : List K) (ids : List α) (c : α) : K :=
  (((ids.zip x).filter fun p => decide (p.1 = c)).map Prod.snd).sum

/-! ## Lemmas -/

theorem uniqueIds_nodup (ids : List ℤ) : (uniqueIds ids).Nodup :=
  ((List.perm_insertionSort _ _).nodup_iff).2 (List.nodup_dedup ids)

theorem mem_uniqueIds (ids : List ℤ) (c : ℤ) : c ∈ uniqueIds ids ↔ c ∈ ids := by
  simp [uniqueIds]

theorem maxCluster_foldl (l : List ℤ) (m : ℤ) :
    m ≤ l.foldl (fun m c => if c > m then c else m) m ∧
      ∀ c ∈ l, c ≤ l.foldl (fun m c => if c > m then c else m) m := by
  induction l generalizing m with
  | nil => simp
  | cons a l ih =>
    simp only [List.foldl_cons, List.mem_cons, forall_eq_or_imp]
    obtain ⟨h1, h2⟩ := ih (if a > m then a else m)
    refine ⟨le_trans ?_ h1, le_trans ?_ h1, h2⟩ <;> split_ifs <;> omega

theorem le_maxCluster {l : List ℤ} {c : ℤ} (h : c ∈ l) : c ≤ maxCluster l := (maxCluster_foldl l 0).2 c h
theorem maxCluster_nonneg (l : List ℤ) : 0 ≤ maxCluster l := (maxCluster_foldl l 0).1

theorem wrapIdx_nonneg {size : ℕ} {i : ℤ} (h0 : 0 ≤ i) (h1 : i < size) : wrapIdx size i = some i.toNat := by
  simp [wrapIdx, h0, h1]

theorem fill_aux (size : ℕ) : ∀ (l : List (ℤ × ℕ)) (t0 : ℕ → ℤ),
    (∀ p ∈ l, 0 ≤ p.1 ∧ p.1 < size) → (l.map Prod.fst).Nodup →
    ∃ t, l.foldl (fun t p => t.bind fun t => (wrapIdx size p.1).map fun k => Function.update t k (p.2 : ℤ)) (some t0)
        = some t ∧ (∀ p ∈ l, t p.1.toNat = p.2) ∧ ∀ k, (∀ p ∈ l, p.1.toNat ≠ k) → t k = t0 k := by
  intro l
  induction l with
  | nil => intro t0 _ _; exact ⟨t0, rfl, by simp, by simp⟩
  | cons a l ih =>
    intro t0 hb hn
    have ha := hb a (by simp)
    rw [List.map_cons, List.nodup_cons] at hn
    obtain ⟨t, h1, h2, h3⟩ := ih (Function.update t0 a.1.toNat (a.2 : ℤ)) (fun p hp => hb p (by simp [hp])) hn.2
    refine ⟨t, ?_, ?_, ?_⟩
    · simp only [List.foldl_cons, Option.bind_some, wrapIdx_nonneg ha.1 ha.2, Option.map_some]
      exact h1
    · intro p hp
      rcases List.mem_cons.1 hp with rfl | hp
      · rw [h3 _ ?_, Function.update_self]
        intro q hq he
        have hq0 := (hb q (by simp [hq])).1
        have : q.1 = p.1 := by omega
        exact hn.1 (this ▸ List.mem_map_of_mem (f := Prod.fst) hq)
      · exact h2 p hp
    · intro k hk
      rw [h3 k (fun p hp => hk p (by simp [hp])), Function.update_of_ne]
      exact fun h => hk a (by simp) h.symm

theorem acc_aux (size n : ℕ) (table : ℕ → ℤ) : ∀ (rows : List (ℤ × K)) (a0 : ℕ → K),
    (∀ p ∈ rows, 0 ≤ p.1 ∧ p.1 < size ∧ 0 ≤ table p.1.toNat ∧ table p.1.toNat < n) →
    ∃ a, rows.foldl (fun acc p => acc.bind fun acc => (wrapIdx size p.1).bind fun k =>
        (wrapIdx n (table k)).map fun c => Function.update acc c (acc c + p.2)) (some a0) = some a ∧
      ∀ k : ℕ, a k = a0 k + ((rows.filter fun p => decide (table p.1.toNat = k)).map Prod.snd).sum := by
  intro rows
  induction rows with
  | nil => intro a0 _; exact ⟨a0, rfl, by simp⟩
  | cons r rows ih =>
    intro a0 hb
    obtain ⟨h0, h1, h2, h3⟩ := hb r (by simp)
    obtain ⟨a, e, ha⟩ := ih (Function.update a0 (table r.1.toNat).toNat (a0 (table r.1.toNat).toNat + r.2))
      (fun p hp => hb p (by simp [hp]))
    refine ⟨a, ?_, ?_⟩
    · simp only [List.foldl_cons, Option.bind_some, wrapIdx_nonneg h0 h1, wrapIdx_nonneg h2 h3, Option.map_some]
      exact e
    · intro k
      rw [ha k]
      by_cases hk : table r.1.toNat = k
      · have : (table r.1.toNat).toNat = k := by omega
        rw [this, Function.update_self]
        simp [List.filter_cons, hk, add_assoc]
      · have : k ≠ (table r.1.toNat).toNat := by omega
        rw [Function.update_of_ne this]
        simp [List.filter_cons, hk]

/-! ## C41 -/

/-- C41: for non-negative integer labels the compiled table look-up returns what the interpreted code returns, whatever
the labels (gaps allowed) and the values. -/
theorem C41_compiled_eq_interpreted (x : List K) (ids : List ℤ) (hid : ∀ i ∈ ids, 0 ≤ i) :
    computeClusterSums x ids = some (clusterSumsPy x ids (uniqueIds ids)) := by
  set uniq := uniqueIds ids with hu
  have hnd : uniq.Nodup := uniqueIds_nodup ids
  have hmem : ∀ c, c ∈ uniq ↔ c ∈ ids := mem_uniqueIds ids
  set size := (maxCluster uniq + 1).toNat with hs
  have hb : ∀ c ∈ uniq, 0 ≤ c ∧ c < size := by
    intro c hc
    have := le_maxCluster hc
    have := maxCluster_nonneg uniq
    exact ⟨hid c ((hmem c).1 hc), by omega⟩
  obtain ⟨t, h1, h2, -⟩ := fill_aux size uniq.zipIdx (fun _ => -1)
    (fun p hp => hb p.1 (List.fst_mem_of_mem_zipIdx hp)) (by simpa using hnd)
  have ht : ∀ k (hk : k < uniq.length), t (uniq[k]).toNat = k := by
    intro k hk
    have : (uniq[k], k) ∈ uniq.zipIdx := by
      rw [List.mem_zipIdx_iff_getElem?]; simp [hk]
    exact h2 _ this
  have hrow : ∀ p ∈ ids.zip x, 0 ≤ p.1 ∧ p.1 < size ∧ 0 ≤ t p.1.toNat ∧ t p.1.toNat < uniq.length := by
    intro p hp
    have hp1 : p.1 ∈ uniq := (hmem _).2 (List.of_mem_zip (a := p.1) (b := p.2) hp).1
    obtain ⟨k, hk, e⟩ := List.getElem_of_mem hp1
    have := hb _ hp1
    rw [← e, ht k hk, e]
    exact ⟨this.1, this.2, by omega, by omega⟩
  obtain ⟨a, e, ha⟩ := acc_aux size uniq.length t (ids.zip x) (fun _ => 0) hrow
  unfold computeClusterSums clusterSumsNb
  simp only [← hu, ← hs]
  rw [show fillTable size uniq = some t from h1]
  simp only [Option.bind_some]
  rw [show accumulate size uniq.length t (ids.zip x) = some a from e]
  simp only [Option.map_some, Option.some.injEq]
  unfold clusterSumsPy
  apply List.ext_getElem (by simp)
  intro k hk1 hk2
  simp only [List.length_map, List.length_range] at hk1
  simp only [List.getElem_map, List.getElem_range, ha k, zero_add]
  congr 2
  apply List.filter_congr
  intro p hp
  have hp1 : p.1 ∈ uniq := (hmem _).2 (List.of_mem_zip (a := p.1) (b := p.2) hp).1
  obtain ⟨m, hm, em⟩ := List.getElem_of_mem hp1
  rw [← em, ht m hm]
  have : uniq[m] = uniq[k] ↔ m = k := hnd.getElem_inj_iff
  simp [this]

example : computeClusterSums [(1 : ℚ), 2, 3, 4] [7, 0, 7, 3] = some [2, 4, 4] ∧ (∀ i ∈ [(7 : ℤ), 0, 7, 3], 0 ≤ i) := by
  decide +kernel

/-- C41 is refuted for negative integer labels: label `-1` shares its table slot with the largest label, so the compiled
code merges two clusters and leaves another empty. -/
theorem C41_negative_labels_violated :
    computeClusterSums [(1 : ℚ), 10, 100] [-1, 0, 1] = some [0, 10, 101] ∧
      clusterSumsPy [(1 : ℚ), 10, 100] [-1, 0, 1] (uniqueIds [-1, 0, 1]) = [1, 10, 100] := by
  decide +kernel

/-- C41: entry `k` of the result is the sum over the units carrying the `k`-th smallest label; labels are listed in
increasing order, each once, and are exactly the labels that occur. -/
theorem C41_entries (x : List K) (ids : List ℤ) :
    clusterSumsPy x ids (uniqueIds ids) = (uniqueIds ids).map (labelSum x ids) ∧
      (uniqueIds ids).Pairwise (· < ·) ∧ ∀ c, c ∈ uniqueIds ids ↔ c ∈ ids := by
  refine ⟨rfl, ?_, mem_uniqueIds ids⟩
  have h := List.pairwise_insertionSort (· ≤ ·) ids.dedup
  have hn := uniqueIds_nodup ids
  exact (h.and hn).imp (fun h => lt_of_le_of_ne h.1 h.2)

example : clusterSumsPy [(1 : ℚ), 2, 3, 4] [7, 0, 7, 3] (uniqueIds [7, 0, 7, 3]) = [2, 4, 4] := by decide +kernel

theorem sum_labelSum_aux {α : Type*} [DecidableEq α] (rows : List (α × K)) (l : List α) (hn : l.Nodup)
    (hr : ∀ p ∈ rows, p.1 ∈ l) :
    (l.map fun c => ((rows.filter fun p => decide (p.1 = c)).map Prod.snd).sum).sum = (rows.map Prod.snd).sum := by
  induction rows with
  | nil => simp
  | cons r rows ih =>
    have ih' := ih (fun p hp => hr p (by simp [hp]))
    clear ih
    have key : ∀ c, (((r :: rows).filter fun p => decide (p.1 = c)).map Prod.snd).sum =
        (if r.1 = c then r.2 else 0) + ((rows.filter fun p => decide (p.1 = c)).map Prod.snd).sum := by
      intro c
      by_cases h : r.1 = c <;> simp [List.filter_cons, h]
    simp only [key, List.sum_map_add, ih', List.map_cons, List.sum_cons]
    congr 1
    have hm := hr r (by simp)
    clear ih' key hr
    induction l with
    | nil => simp at hm
    | cons a l ih2 =>
      rw [List.nodup_cons] at hn
      by_cases h : r.1 = a
      · subst h
        have : (l.map fun c => if r.1 = c then r.2 else 0).sum = 0 := by
          apply List.sum_eq_zero
          intro y hy
          obtain ⟨c, hc, rfl⟩ := List.mem_map.1 hy
          rw [if_neg]; rintro rfl; exact hn.1 hc
        simp [this]
      · have : r.1 ∈ l := by simpa [h] using hm
        simp [h, ih2 hn.2 this]

/-- C41: the cluster sums add up to the total of the column (every unit belongs to exactly one cluster). -/
theorem C41_sums_add_to_total (x : List K) (ids : List ℤ) (hlen : x.length = ids.length) :
    (clusterSumsPy x ids (uniqueIds ids)).sum = x.sum := by
  have h := sum_labelSum_aux (ids.zip x) (uniqueIds ids) (uniqueIds_nodup ids)
    (fun p hp => (mem_uniqueIds ids _).2 (List.of_mem_zip (a := p.1) (b := p.2) hp).1)
  rw [List.map_snd_zip (by omega)] at h
  exact h

example : (clusterSumsPy [(1 : ℚ), 2, 3, 4] [7, 0, 7, 3] (uniqueIds [7, 0, 7, 3])).sum = 10 := by decide +kernel

theorem uniqueIds_map_perm (f : ℤ → ℤ) (hf : Function.Injective f) (ids : List ℤ) :
    (uniqueIds (ids.map f)).Perm ((uniqueIds ids).map f) := by
  rw [List.perm_ext_iff_of_nodup (uniqueIds_nodup _) ((uniqueIds_nodup _).map hf)]
  intro a
  simp [mem_uniqueIds]

theorem labelSum_map {α β : Type*} [DecidableEq α] [DecidableEq β] (f : α → β) (hf : Function.Injective f)
    (x : List K) (ids : List α) (c : α) : labelSum x (ids.map f) (f c) = labelSum x ids c := by
  unfold labelSum
  induction ids generalizing x with
  | nil => simp
  | cons a ids ih =>
    cases x with
    | nil => simp
    | cons y x =>
      simp only [List.map_cons, List.zip_cons_cons, List.filter_cons, hf.eq_iff]
      by_cases h : a = c <;> simp [h, ih]

/-- C41: renaming the clusters (injectively) only permutes the sums, and an increasing renaming leaves them unchanged. -/
theorem C41_relabel (x : List K) (ids : List ℤ) (f : ℤ → ℤ) (hf : Function.Injective f) :
    (clusterSumsPy x (ids.map f) (uniqueIds (ids.map f))).Perm (clusterSumsPy x ids (uniqueIds ids)) ∧
      (StrictMono f → clusterSumsPy x (ids.map f) (uniqueIds (ids.map f)) = clusterSumsPy x ids (uniqueIds ids)) := by
  have e : ((uniqueIds ids).map f).map (labelSum x (ids.map f)) = (uniqueIds ids).map (labelSum x ids) := by
    rw [List.map_map]
    exact List.map_congr_left fun c _ => labelSum_map f hf x ids c
  constructor
  · rw [(C41_entries x _).1, (C41_entries x _).1, ← e]
    exact (uniqueIds_map_perm f hf ids).map _
  · intro hm
    have : uniqueIds (ids.map f) = (uniqueIds ids).map f := by
      apply (uniqueIds_map_perm f hf ids).eq_of_pairwise' (r := (· < ·)) (C41_entries x _).2.1
      rw [List.pairwise_map]
      exact (C41_entries x ids).2.1.imp fun h => hm h
    rw [(C41_entries x _).1, (C41_entries x _).1, ← e, this]

example : clusterSumsPy [(1 : ℚ), 2, 3] ([7, 0, 7].map (- ·)) (uniqueIds ([7, 0, 7].map (- ·))) = [4, 2] ∧
    clusterSumsPy [(1 : ℚ), 2, 3] [7, 0, 7] (uniqueIds [7, 0, 7]) = [2, 4] := by decide +kernel

/-- C41: when every unit is its own cluster the sums are the input, listed by increasing label; with labels in increasing
order the output is the input itself. -/
theorem C41_singletons (x : List K) (ids : List ℤ) (hlen : x.length = ids.length) (hn : ids.Nodup) :
    (clusterSumsPy x ids (uniqueIds ids)).Perm x ∧
      (ids.Pairwise (· < ·) → clusterSumsPy x ids (uniqueIds ids) = x) := by
  have key : ids.map (labelSum x ids) = x := by
    induction ids generalizing x with
    | nil => cases x with
      | nil => rfl
      | cons => simp at hlen
    | cons a ids ih => cases x with
      | nil => simp at hlen
      | cons y x =>
        rw [List.nodup_cons] at hn
        have ih := ih x (by simpa using hlen) hn.2
        simp only [List.map_cons]
        congr 1
        · have : ((ids.zip x).filter fun p => decide (p.1 = a)) = [] := by
            rw [List.filter_eq_nil_iff]
            intro p hp
            have := (List.of_mem_zip (a := p.1) (b := p.2) hp).1
            simp only [decide_eq_true_eq]
            rintro rfl; exact hn.1 this
          simp [labelSum, List.filter_cons, this]
        · conv_rhs => rw [← ih]
          apply List.map_congr_left
          intro c hc
          have : a ≠ c := by rintro rfl; exact hn.1 hc
          simp [labelSum, List.filter_cons, this]
  have hp : (uniqueIds ids).Perm ids := by
    rw [List.perm_ext_iff_of_nodup (uniqueIds_nodup _) hn]
    exact mem_uniqueIds ids
  constructor
  · rw [(C41_entries x _).1]
    exact (hp.map _).trans (by rw [key])
  · intro hs
    have : uniqueIds ids = ids := hp.eq_of_pairwise' (r := (· < ·)) (C41_entries x _).2.1 hs
    rw [(C41_entries x _).1, this, key]

example : clusterSumsPy [(1 : ℚ), 2, 3] [5, 2, 9] (uniqueIds [5, 2, 9]) = [2, 1, 3] := by decide +kernel

theorem rank_lt_iff {α : Type*} [LinearOrder α] (l : List α) {a b : α} (ha : a ∈ l) :
    (l.filter fun c => decide (c < a)).length < (l.filter fun c => decide (c < b)).length ↔ a < b := by
  constructor
  · intro h
    by_contra hab
    push Not at hab
    have : (l.filter fun c => decide (c < b)).length ≤ (l.filter fun c => decide (c < a)).length :=
      (List.monotone_filter_right l (fun c hc => by
        simp only [decide_eq_true_eq] at hc ⊢; exact lt_of_lt_of_le hc hab)).length_le
    omega
  · intro hab
    have h1 : (l.filter fun c => decide (c < a)).Sublist (l.filter fun c => decide (c < b)) :=
      List.monotone_filter_right l (fun c hc => by
        simp only [decide_eq_true_eq] at hc ⊢; exact lt_trans hc hab)
    refine lt_of_le_of_ne h1.length_le fun he => ?_
    have h2 := h1.eq_of_length he
    have : a ∈ l.filter fun c => decide (c < b) := by simp [ha, hab]
    rw [← h2] at this
    simp at this

/-- C41: non-integer labels (strings, dates, floats) are first replaced by their rank, and for every ordered label type
the compiled sums are then the sums per original label, in label order.  Ranks are never negative, so this path is safe. -/
theorem C41_ranked_labels {α : Type*} [LinearOrder α] (x : List K) (ids : List α) :
    computeClusterSums x (rankIds ids) = some ((ids.dedup.insertionSort (· ≤ ·)).map (labelSum x ids)) := by
  classical
  set u := ids.dedup.insertionSort (· ≤ ·) with hu
  have hmem : ∀ a, a ∈ u ↔ a ∈ ids := by intro a; simp [hu]
  have hund : u.Nodup := ((List.perm_insertionSort _ _).nodup_iff).2 (List.nodup_dedup ids)
  have husort : u.Pairwise (· < ·) :=
    ((List.pairwise_insertionSort (· ≤ ·) ids.dedup).and hund).imp fun h => lt_of_le_of_ne h.1 h.2
  set rk : α → ℤ := fun a => ((u.filter fun b => decide (b < a)).length : ℤ) with hrk
  have hr : rankIds ids = ids.map rk := rfl
  rw [hr, C41_compiled_eq_interpreted _ _ (by
    intro i hi; obtain ⟨a, -, rfl⟩ := List.mem_map.1 hi; simp [hrk])]
  have hlt : ∀ a ∈ u, ∀ b ∈ u, (rk a < rk b ↔ a < b) := by
    intro a ha b _
    simp only [hrk, Nat.cast_lt]
    exact rank_lt_iff u ha
  have hinj : ∀ a ∈ u, ∀ b ∈ u, rk a = rk b → a = b := by
    intro a ha b hb he
    rcases lt_trichotomy a b with h | h | h
    · have := (hlt a ha b hb).2 h; omega
    · exact h
    · have := (hlt b hb a ha).2 h; omega
  have hU : uniqueIds (ids.map rk) = u.map rk := by
    have hp : (u.map rk).Pairwise (· < ·) := by
      rw [List.pairwise_map]
      exact husort.imp_of_mem fun ha hb h => (hlt _ ha _ hb).2 h
    have : (uniqueIds (ids.map rk)).Perm (u.map rk) := by
      rw [List.perm_ext_iff_of_nodup (uniqueIds_nodup _) (hp.imp fun h => ne_of_lt h)]
      intro c
      simp [mem_uniqueIds, hmem]
    exact this.eq_of_pairwise' (r := (· < ·)) (C41_entries x _).2.1 hp
  rw [(C41_entries x _).1, hU, List.map_map]
  congr 1
  apply List.map_congr_left
  intro a ha
  simp only [Function.comp_apply, labelSum]
  have gen : ∀ (l : List α) (x : List K), (∀ b ∈ l, b ∈ u) →
      (((l.map rk).zip x).filter fun p => decide (p.1 = rk a)).map Prod.snd =
        ((l.zip x).filter fun p => decide (p.1 = a)).map Prod.snd := by
    intro l
    induction l with
    | nil => intro x _; simp
    | cons b l ih =>
      intro x hl
      cases x with
      | nil => simp
      | cons y x =>
        have ih := ih x (fun c hc => hl c (by simp [hc]))
        have hb : rk b = rk a ↔ b = a := ⟨hinj b (hl b (by simp)) a ha, fun h => by rw [h]⟩
        simp only [List.map_cons, List.zip_cons_cons, List.filter_cons, hb]
        by_cases h : b = a <;> simp [h, ih]
  rw [gen ids x (fun b hb => (hmem b).2 hb)]

example : computeClusterSums [(1 : ℚ), 2, 3] (rankIds [(-5 : ℤ), 2, -5]) = some [4, 2] := by decide +kernel

/-- C41: the two row-gathering routines of the cluster bootstrap return the same rows in the same order. -/
theorem C41_gather_agree (starts counts sampled : List ℕ) : gatherNb starts counts sampled = gatherPy starts counts sampled := by
  unfold gatherNb gatherPy
  have inner : ∀ (l : List ℕ) (s : ℕ) (acc : List ℕ),
      l.foldl (fun acc j => acc ++ [s + j]) acc = acc ++ l.map (s + ·) := by
    intro l s
    induction l with
    | nil => simp
    | cons a l ih => intro acc; simp [ih]
  have outer : ∀ (l acc : List ℕ),
      l.foldl (fun acc c => (List.range (counts.getD c 0)).foldl (fun acc j => acc ++ [starts.getD c 0 + j]) acc) acc =
        acc ++ l.flatMap fun c => (List.range (counts.getD c 0)).map (starts.getD c 0 + ·) := by
    intro l
    induction l with
    | nil => simp
    | cons a l ih => intro acc; rw [List.foldl_cons, ih, inner, List.flatMap_cons, List.append_assoc]
  simpa using outer sampled []

example : gatherNb [0, 2, 5] [2, 3, 1] [2, 0, 2] = [5, 0, 1, 5] := by decide +kernel

/-- C41: every cluster mean is the cluster sum divided by the (positive) number of units carrying the label; means of
singleton clusters are the entries themselves. -/
theorem C41_means (x : List K) (ids : List ℤ) :
    clusterMeans x ids = (uniqueIds ids).map (fun c => labelSum x ids c / (ids.count c : K)) ∧
      (∀ c ∈ uniqueIds ids, 0 < ids.count c) := by
  constructor
  · unfold clusterMeans labelSum
    apply List.map_congr_left
    intro c _
    rw [List.count_eq_length_filter]
    rfl
  · intro c hc
    exact List.count_pos_iff.2 ((mem_uniqueIds ids c).1 hc)

example : clusterMeans [(1 : ℚ), 2, 3, 4] [7, 0, 7, 3] = [2, 4, 2] := by decide +kernel

end Verif.Boot
