import Verif.Valid.TwoModel
import Verif.Valid.Props
import Verif.Panel.Lemmas2
import Mathlib.Data.List.Sort

/-!
# Pairing of pre and post outcomes in the two-period pipelines (C95, C96, C97)
-/

set_option linter.unusedSectionVars false
set_option linter.unusedSimpArgs false

namespace Verif.Valid

open Verif.Panel

variable {ι β : Type*} [LinearOrder ι]

/-! ## Specification -/

/-- Number of rows of unit `u` in period `t`. -/
def obsCount (df : List (Row ι ℤ β)) (u : ι) (t : ℤ) : ℕ :=
  (df.filter fun r => r.id = u ∧ r.t = t).length

/-- Entry by entry, the post and the pre array belong to the same unit, each unit once, and the rows
are that unit's rows of the data in the later period `t1` and the earlier period `t0`. -/
structure Paired (df : List (Row ι ℤ β)) (t0 t1 : ℤ) (o : TwoData ι β) : Prop where
  same : o.post.map Row.id = o.pre.map Row.id
  once : (o.post.map Row.id).Nodup
  post : ∀ r ∈ o.post, r ∈ df ∧ r.t = t1
  pre : ∀ r ∈ o.pre, r ∈ df ∧ r.t = t0
  size : o.nUnits = o.post.length

/-! ## Lemmas -/

instance : Std.Total (leIT (ι := ι) (β := β)) := ⟨by
  intro a b
  unfold leIT
  rcases lt_trichotomy a.id b.id with h | h | h
  · exact Or.inl (Or.inl h)
  · rcases le_total a.t b.t with h' | h'
    · exact Or.inl (Or.inr ⟨h, h'⟩)
    · exact Or.inr (Or.inr ⟨h.symm, h'⟩)
  · exact Or.inr (Or.inl h)⟩

instance : IsTrans (Row ι ℤ β) leIT := ⟨by
  intro a b c h1 h2
  unfold leIT at *
  rcases h1 with h1 | ⟨h1, h1'⟩ <;> rcases h2 with h2 | ⟨h2, h2'⟩
  · exact Or.inl (h1.trans h2)
  · exact Or.inl (h2 ▸ h1)
  · exact Or.inl (h1 ▸ h2)
  · exact Or.inr ⟨h1.trans h2, h1'.trans h2'⟩⟩

instance : Std.Total (leId (ι := ι) (β := β)) := ⟨fun a b => le_total a.id b.id⟩

instance : IsTrans (Row ι ℤ β) leId := ⟨fun _ _ _ h1 h2 => le_trans h1 h2⟩

theorem sorted_ids_of_leId (l : List (Row ι ℤ β)) :
    ((l.insertionSort leId).map Row.id).Pairwise (· ≤ ·) := by
  rw [List.pairwise_map]
  exact List.pairwise_insertionSort leId l

theorem sorted_ids_of_leIT (l : List (Row ι ℤ β)) :
    ((l.insertionSort leIT).map Row.id).Pairwise (· ≤ ·) := by
  rw [List.pairwise_map]
  refine (List.pairwise_insertionSort leIT l).imp ?_
  intro a b h
  rcases h with h | h
  · exact h.le
  · exact h.1.le

theorem eq_of_sorted_nodup {l m : List ι} (hl : l.Pairwise (· ≤ ·)) (hm : m.Pairwise (· ≤ ·))
    (nl : l.Nodup) (nm : m.Nodup) (h : ∀ u, u ∈ l ↔ u ∈ m) : l = m := by
  have hp : l.Perm m := (List.perm_ext_iff_of_nodup nl nm).2 h
  exact hp.eq_of_pairwise (fun a b _ _ h1 h2 => le_antisymm h1 h2) hl hm

theorem count_map_id (l : List (Row ι ℤ β)) (u : ι) :
    (l.map Row.id).count u = (l.filter fun r => r.id = u).length := by
  rw [List.count, List.countP_map, List.countP_eq_length_filter]
  congr 1

theorem obsCount_perm {l m : List (Row ι ℤ β)} (h : l.Perm m) (u : ι) (t : ℤ) :
    obsCount l u t = obsCount m u t := (h.filter _).length_eq

theorem atTime_count (df : List (Row ι ℤ β)) (u : ι) (t : ℤ) :
    ((atTime df t).filter fun r => r.id = u).length = obsCount df u t := by
  unfold atTime obsCount
  rw [List.filter_filter]
  congr 1
  apply List.filter_congr
  intro r _
  simp

theorem sortedTimes_two {df : List (Row ι ℤ β)} {t0 t1 : ℤ} (h : sortedTimes df = [t0, t1]) :
    t0 < t1 ∧ ∀ t, t ∈ df.map Row.t ↔ t = t0 ∨ t = t1 := by
  unfold sortedTimes at h
  have hp : ((df.map Row.t).dedup).Perm [t0, t1] := by
    rw [← h]; exact (List.perm_insertionSort _ _).symm
  have hs : ([t0, t1] : List ℤ).Pairwise (· ≤ ·) := by
    rw [← h]; exact List.pairwise_insertionSort _ _
  have hn : ([t0, t1] : List ℤ).Nodup := hp.nodup_iff.1 (List.nodup_dedup _)
  simp at hs hn
  refine ⟨lt_of_le_of_ne hs hn, ?_⟩
  intro t
  rw [← List.mem_dedup, hp.mem_iff]
  simp

/-- A unit's rows split over the two periods. -/
theorem unit_split {df : List (Row ι ℤ β)} {t0 t1 : ℤ} (hne : t0 ≠ t1)
    (h : ∀ r ∈ df, r.t = t0 ∨ r.t = t1) (u : ι) :
    (df.filter fun r => r.id = u).length = obsCount df u t0 + obsCount df u t1 := by
  induction df with
  | nil => rfl
  | cons r df ih =>
    have ih' := ih (fun r hr => h r (by simp [hr]))
    unfold obsCount at ih' ⊢
    simp only [List.filter_cons]
    by_cases hu : r.id = u
    · rcases h r (by simp) with ht | ht
      · simp [hu, ht, hne]
        simp at ih'
        omega
      · have hne' : ¬ t1 = t0 := fun h => hne h.symm
        simp [hu, ht, hne']
        simp at ih'
        omega
    · simp only [hu, decide_false, false_and, Bool.false_eq_true, if_false]
      exact ih'

theorem mem_obsCount {df : List (Row ι ℤ β)} {u : ι} {t : ℤ} :
    0 < obsCount df u t ↔ ∃ r ∈ df, r.id = u ∧ r.t = t := by
  unfold obsCount
  rw [List.length_pos_iff_exists_mem]
  simp [and_assoc]

/-- Balanced rows: unit counts are those of the data for kept units. -/
theorem balanced_obsCount (df : List (Row ι ℤ β)) (u : ι) (t : ℤ)
    (h : (df.filter fun r => r.id = u).length = nUnique (df.map Row.t)) :
    obsCount (makeBalanced df) u t = obsCount df u t := by
  rw [makeBalanced_eq_filter]
  unfold obsCount
  rw [List.filter_filter]
  congr 1
  apply List.filter_congr
  intro r _
  by_cases hr : r.id = u
  · simp [hr, h]
  · simp [hr]

theorem balanced_obsCount_le (df : List (Row ι ℤ β)) (u : ι) (t : ℤ)
    (h : 0 < obsCount (makeBalanced df) u t) :
    (df.filter fun r => r.id = u).length = nUnique (df.map Row.t) := by
  obtain ⟨r, hr, rfl, _⟩ := mem_obsCount.1 h
  exact (mem_makeBalanced.1 hr).2

theorem mem_joinIds (post pre : List (Row ι ℤ β)) (u : ι) :
    u ∈ joinIds post pre ↔ (∃ r ∈ post, r.id = u) ∧ ∃ s ∈ pre, s.id = u := by
  unfold joinIds
  simp only [List.mem_flatMap, List.mem_map, List.mem_filter, decide_eq_true_eq]
  constructor
  · rintro ⟨r, hr, s, ⟨hs, he⟩, rfl⟩
    exact ⟨⟨r, hr, he.symm⟩, s, hs, rfl⟩
  · rintro ⟨⟨r, hr, rfl⟩, s, hs, he⟩
    exact ⟨r, hr, s, ⟨hs, he⟩, he⟩

theorem ofUnits_nodup (ids : List ι) (l : List (Row ι ℤ β))
    (h : ∀ u ∈ ids, (l.filter fun r => r.id = u).length ≤ 1) : ((ofUnits ids l).map Row.id).Nodup := by
  rw [List.nodup_iff_count_le_one]
  intro u
  rw [count_map_id]
  unfold ofUnits
  by_cases hu : u ∈ ids
  · refine le_trans ?_ (h u hu)
    rw [List.filter_filter]
    apply List.Sublist.length_le
    apply List.monotone_filter_right
    intro r hr
    simp at hr ⊢
    exact hr.1
  · rw [List.length_eq_zero_iff.2]
    · omega
    · rw [List.filter_filter, List.filter_eq_nil_iff]
      intro r _ hr
      simp at hr
      exact hu (hr.1 ▸ hr.2)

/-- The pairing of the two-period build, and which units it contains. -/
theorem twoBuild_spec {γ : Type*} [DecidableEq γ] (key : β → γ) (df : List (Row ι ℤ β)) (o : TwoData ι β)
    (h2 : nUnique (df.map Row.t) = 2) (ho : twoBuild key df = some o) :
    ∃ t0 t1, t0 < t1 ∧ (∀ r ∈ df, r.t = t0 ∨ r.t = t1) ∧ Paired df t0 t1 o ∧
      (∀ u, u ∈ o.post.map Row.id ↔ obsCount df u t0 = 1 ∧ obsCount df u t1 = 1) ∧
      o.post.map (fun r => key r.val) = o.pre.map (fun r => key r.val) := by
  unfold twoBuild at ho
  dsimp only at ho
  split at ho
  · rename_i t0 t1 hts
    split at ho
    · rename_i hinv
      have ho' := (Option.some.inj ho).symm
      obtain ⟨hlt, hper⟩ := sortedTimes_two hts
      set b := makeBalanced df with hb
      have hbsub : ∀ r ∈ b, r ∈ df := fun r hr => (mem_makeBalanced.1 hr).1
      -- the periods of the data are the same two
      have hall : ∀ r ∈ df, r.t = t0 ∨ r.t = t1 := by
        intro r hr
        have hsub : [t0, t1] ⊆ (df.map Row.t).dedup := by
          intro t ht
          rw [List.mem_dedup]
          have : t ∈ b.map Row.t := (hper t).2 (by simpa using ht)
          rw [List.mem_map] at this ⊢
          obtain ⟨s, hs, rfl⟩ := this
          exact ⟨s, hbsub s hs, rfl⟩
        have hnd : ([t0, t1] : List ℤ).Nodup := by simp [hlt.ne]
        have hsp := (List.subperm_of_subset hnd hsub)
        have hlen : ((df.map Row.t).dedup).length ≤ ([t0, t1] : List ℤ).length := by
          unfold nUnique at h2; rw [h2]; simp
        have hperm := hsp.perm_of_length_le hlen
        have : r.t ∈ (df.map Row.t).dedup := List.mem_dedup.2 (List.mem_map.2 ⟨r, hr, rfl⟩)
        rw [← hperm.mem_iff] at this
        simpa using this
      set d := b.insertionSort leIT with hd
      have hdp : d.Perm b := List.perm_insertionSort _ _
      have hcnt : ∀ u t, obsCount d u t = obsCount b u t := fun u t => obsCount_perm hdp u t
      set common := joinIds (atTime d t1) (atTime d t0) with hcm
      have hmem : ∀ t u, (∃ r ∈ atTime d t, r.id = u) ↔ 0 < obsCount b u t := by
        intro t u
        rw [← hcnt, mem_obsCount]
        unfold atTime
        simp only [List.mem_filter, decide_eq_true_eq]
        constructor
        · rintro ⟨r, ⟨hr, ht⟩, hu⟩; exact ⟨r, hr, hu, ht⟩
        · rintro ⟨r, hr, hu, ht⟩; exact ⟨r, ⟨hr, ht⟩, hu⟩
      have hcommon : ∀ u, u ∈ common ↔ obsCount df u t0 = 1 ∧ obsCount df u t1 = 1 := by
        intro u
        rw [hcm, mem_joinIds, hmem, hmem]
        constructor
        · rintro ⟨h1, h0⟩
          have hk := balanced_obsCount_le df u t1 h1
          rw [balanced_obsCount df u _ hk] at h1 h0
          rw [h2, unit_split hlt.ne hall] at hk
          omega
        · rintro ⟨h0, h1⟩
          have hk : (df.filter fun r => r.id = u).length = nUnique (df.map Row.t) := by
            rw [unit_split hlt.ne hall, h2, h0, h1]
          rw [hb, balanced_obsCount df u _ hk, balanced_obsCount df u _ hk]
          omega
      have hone : ∀ t, t = t0 ∨ t = t1 → ∀ u ∈ common, ((atTime d t).filter fun r => r.id = u).length ≤ 1 := by
        intro t ht u hu
        rw [atTime_count, hcnt]
        have hu' := (hcommon u).1 hu
        have hk : (df.filter fun r => r.id = u).length = nUnique (df.map Row.t) := by
          rw [unit_split hlt.ne hall, h2, hu'.1, hu'.2]
        rw [hb, balanced_obsCount df u _ hk]
        rcases ht with rfl | rfl
        · omega
        · omega
      have hids : ∀ t, t = t0 ∨ t = t1 → ∀ u, u ∈ (ofUnits common (atTime d t)).map Row.id ↔ u ∈ common := by
        intro t ht u
        unfold ofUnits
        simp only [List.mem_map, List.mem_filter, decide_eq_true_eq]
        constructor
        · rintro ⟨r, ⟨_, hr⟩, rfl⟩; exact hr
        · intro hu
          have hj := (mem_joinIds _ _ u).1 hu
          rcases ht with rfl | rfl
          · obtain ⟨r, hr, rfl⟩ := hj.2; exact ⟨r, ⟨hr, hu⟩, rfl⟩
          · obtain ⟨r, hr, rfl⟩ := hj.1; exact ⟨r, ⟨hr, hu⟩, rfl⟩
      have hnd : ∀ t, t = t0 ∨ t = t1 → ((ofUnits common (atTime d t)).map Row.id).Nodup :=
        fun t ht => ofUnits_nodup common _ (hone t ht)
      have hperm : ∀ t, (((ofUnits common (atTime d t)).insertionSort leId).map Row.id).Perm
          ((ofUnits common (atTime d t)).map Row.id) := fun t => (List.perm_insertionSort _ _).map _
      have hsame : ((ofUnits common (atTime d t1)).insertionSort leId).map Row.id
          = ((ofUnits common (atTime d t0)).insertionSort leId).map Row.id := by
        apply eq_of_sorted_nodup (sorted_ids_of_leId _) (sorted_ids_of_leId _)
        · exact (hperm t1).nodup_iff.2 (hnd t1 (Or.inr rfl))
        · exact (hperm t0).nodup_iff.2 (hnd t0 (Or.inl rfl))
        · intro u
          rw [(hperm t1).mem_iff, (hperm t0).mem_iff, hids t1 (Or.inr rfl), hids t0 (Or.inl rfl)]
      have hrow : ∀ t, ∀ r ∈ (ofUnits common (atTime d t)).insertionSort leId, r ∈ df ∧ r.t = t := by
        intro t r hr
        rw [(List.perm_insertionSort _ _).mem_iff] at hr
        unfold ofUnits atTime at hr
        simp only [List.mem_filter, decide_eq_true_eq] at hr
        exact ⟨hbsub r (hdp.mem_iff.1 hr.1.1), hr.1.2⟩
      have hcnd : common.Nodup := by
        rw [List.nodup_iff_count_le_one]
        intro u
        by_cases hu : u ∈ common
        · rw [hcm]
          unfold joinIds
          rw [List.count_flatMap]
          have hsum : ∀ l : List (Row ι ℤ β), (l.map (List.count u ∘ fun r =>
              ((atTime d t0).filter fun s => s.id = r.id).map Row.id)).sum
              ≤ (l.filter fun r => r.id = u).length := by
            intro l
            induction l with
            | nil => simp
            | cons r l ih =>
              rw [List.map_cons, List.sum_cons, List.filter_cons]
              by_cases hru : r.id = u
              · simp only [hru, decide_true, if_true, List.length_cons, Function.comp]
                have : List.count u (((atTime d t0).filter fun s => s.id = u).map Row.id) ≤ 1 :=
                  le_trans List.count_le_length (by
                    rw [List.length_map]; exact hone t0 (Or.inl rfl) u hu)
                omega
              · simp only [hru, decide_false, Bool.false_eq_true, if_false, Function.comp]
                have : List.count u (((atTime d t0).filter fun s => s.id = r.id).map Row.id) = 0 := by
                  rw [List.count_eq_zero]
                  intro hm
                  rw [List.mem_map] at hm
                  obtain ⟨s, hs, hsu⟩ := hm
                  simp at hs
                  exact hru (hs.2.symm.trans hsu)
                omega
          exact le_trans (hsum _) (hone t1 (Or.inr rfl) u hu)
        · rw [List.count_eq_zero_of_not_mem hu]; omega
      refine ⟨t0, t1, hlt, hall, ?_, ?_, ?_⟩
      · rw [ho']
        refine ⟨hsame, (hperm t1).nodup_iff.2 (hnd t1 (Or.inr rfl)), hrow t1, hrow t0, ?_⟩
        dsimp only
        have : common.Perm ((ofUnits common (atTime d t1)).map Row.id) :=
          (List.perm_ext_iff_of_nodup hcnd (hnd t1 (Or.inr rfl))).2 (fun u => (hids t1 (Or.inr rfl) u).symm)
        rw [this.length_eq, List.length_map, (List.perm_insertionSort _ _).length_eq]
      · intro u
        rw [ho']
        dsimp only
        rw [(hperm t1).mem_iff, hids t1 (Or.inr rfl), hcommon]
      · rw [ho']
        dsimp only
        -- the invariance check compared the same lists
        unfold invariant at hinv
        dsimp only at hinv
        rw [decide_eq_true_eq] at hinv
        have hcom : ∀ u, u ∈ (((atTime b t0).insertionSort leId).map Row.id).filter
            (fun u => u ∈ ((atTime b t1).insertionSort leId).map Row.id) ↔ u ∈ common := by
          intro u
          rw [hcm, mem_joinIds]
          simp only [List.mem_filter, decide_eq_true_eq, List.mem_map, (List.perm_insertionSort _ _).mem_iff]
          have hm : ∀ t, (∃ a ∈ atTime b t, a.id = u) ↔ ∃ r ∈ atTime d t, r.id = u := by
            intro t
            unfold atTime
            simp only [List.mem_filter, decide_eq_true_eq, hdp.mem_iff]
          rw [hm, hm]
          exact and_comm
        have hlist : ∀ t, t = t0 ∨ t = t1 →
            (ofUnits ((((atTime b t0).insertionSort leId).map Row.id).filter
              (fun u => u ∈ ((atTime b t1).insertionSort leId).map Row.id))
              ((atTime b t).insertionSort leId)).insertionSort leId
            = (ofUnits common (atTime d t)).insertionSort leId := by
          intro t ht
          have hp : (ofUnits ((((atTime b t0).insertionSort leId).map Row.id).filter
              (fun u => u ∈ ((atTime b t1).insertionSort leId).map Row.id))
              ((atTime b t).insertionSort leId)).Perm (ofUnits common (atTime d t)) := by
            unfold ofUnits
            simp only [hcom]
            apply List.Perm.filter
            refine (List.perm_insertionSort _ _).trans ?_
            unfold atTime
            exact hdp.symm.filter _
          have hp' := ((List.perm_insertionSort leId _).trans hp).trans
            (List.perm_insertionSort leId (ofUnits common (atTime d t))).symm
          have hnd' := (hperm t).nodup_iff.2 (hnd t ht)
          -- equal as sorted lists with distinct ids
          refine hp'.eq_of_pairwise (le := leId) ?_ (List.pairwise_insertionSort leId _)
            (List.pairwise_insertionSort leId _)
          intro r s hr hs h1 h2
          have hrs : r.id = s.id := le_antisymm h1 h2
          rw [hp'.mem_iff] at hr
          exact List.inj_on_of_nodup_map hnd' (hr) (hs) hrs
        rw [hlist t0 (Or.inl rfl), hlist t1 (Or.inr rfl)] at hinv
        exact hinv.symm
    · simp at ho
  · simp at ho

/-- **C95.** Whatever rows the two-period panel contains — duplicated or missing unit-periods included
— the outcome arrays of the two-period estimators are paired by unit: entry `k` of the post and of the
pre array are the two observations of the same unit, no unit enters twice, `n_units` is their number,
the units used are exactly those observed once in each period, and treatment and weight agree. -/
theorem C95_paired {γ : Type*} [DecidableEq γ] (key : β → γ) (df : List (Row ι ℤ β)) (o : TwoData ι β)
    (h2 : nUnique (df.map Row.t) = 2) (ho : twoBuild key df = some o) :
    ∃ t0 t1, t0 < t1 ∧ (∀ r ∈ df, r.t = t0 ∨ r.t = t1) ∧ Paired df t0 t1 o ∧
      (∀ u, u ∈ o.post.map Row.id ↔ obsCount df u t0 = 1 ∧ obsCount df u t1 = 1) ∧
      o.post.map (fun r => key r.val) = o.pre.map (fun r => key r.val) :=
  twoBuild_spec key df o h2 ho

/-- Units 1 and 2 are complete; unit 3 has two pre rows, unit 4 one row. -/
def exTwo : List (Row ℕ ℤ (ℕ × ℤ)) :=
  [⟨2, 7, 1, 20⟩, ⟨1, 5, 0, 10⟩, ⟨3, 5, 1, 30⟩, ⟨2, 5, 1, 21⟩, ⟨3, 5, 1, 31⟩, ⟨4, 7, 0, 40⟩, ⟨1, 7, 0, 11⟩]

example : nUnique (exTwo.map Row.t) = 2 ∧
    (twoBuild (fun v => v.1) exTwo).map (changes (fun v => v.2)) = some [1, -1] := by decide +kernel

/-- **C96.** If no unit is observed twice in a period, the two-period triple difference pairs its
outcomes by unit. -/
theorem C96_paired (gOf pOf : β → ℤ) (df : List (Row ι ℤ β)) (o : TwoData ι β)
    (h2 : nUnique (df.map Row.t) = 2) (hd : (keys df).Nodup) (ho : dddBuild gOf pOf df = some o) :
    ∃ t0 t1, t0 < t1 ∧ (∀ r ∈ df, r.t = t0 ∨ r.t = t1) ∧ Paired df t0 t1 o ∧
      ∀ u, u ∈ o.post.map Row.id ↔ obsCount df u t0 = 1 ∧ obsCount df u t1 = 1 := by
  unfold dddBuild at ho
  dsimp only at ho
  set s := df.insertionSort leIT with hs
  have hsp : s.Perm df := List.perm_insertionSort _ _
  set b := makeBalanced s with hb
  split at ho
  · simp at ho
  · split at ho
    · rename_i ta t1 tl x tv gl hts hgl
      split at ho
      · have ho' := (Option.some.inj ho).symm
        have hn2 : nUnique (s.map Row.t) = 2 := by
          rw [← h2, nUnique_eq_card, nUnique_eq_card]
          congr 1
          ext t
          simp only [List.mem_toFinset]
          exact (hsp.map _).mem_iff
        have hbs : ∀ r ∈ b, r ∈ s := fun r hr => (mem_makeBalanced.1 hr).1
        have htwo : sortedTimes b = [ta, t1] := by
          have hlen : (sortedTimes b).length ≤ 2 := by
            unfold sortedTimes
            rw [(List.perm_insertionSort _ _).length_eq, ← hn2]
            unfold nUnique
            apply List.Subperm.length_le
            apply List.subperm_of_subset (List.nodup_dedup _)
            intro t ht
            rw [List.mem_dedup] at ht ⊢
            rw [List.mem_map] at ht ⊢
            obtain ⟨r, hr, rfl⟩ := ht
            exact ⟨r, hbs r hr, rfl⟩
          rw [hts] at hlen ⊢
          simp at hlen
          rw [hlen]
        obtain ⟨hlt, hper⟩ := sortedTimes_two htwo
        have hbt : ∀ r ∈ b, r.t = ta ∨ r.t = t1 := fun r hr => (hper r.t).1 (List.mem_map.2 ⟨r, hr, rfl⟩)
        have hall' : ∀ r ∈ s, r.t = ta ∨ r.t = t1 := by
          intro r hr
          have hsub : [ta, t1] ⊆ (s.map Row.t).dedup := by
            intro t ht
            rw [List.mem_dedup]
            have : t ∈ b.map Row.t := (hper t).2 (by simpa using ht)
            rw [List.mem_map] at this ⊢
            obtain ⟨q, hq, rfl⟩ := this
            exact ⟨q, hbs q hq, rfl⟩
          have hnd : ([ta, t1] : List ℤ).Nodup := by simp [hlt.ne]
          have hperm := (List.subperm_of_subset hnd hsub).perm_of_length_le (by
            unfold nUnique at hn2; rw [hn2]; simp)
          have : r.t ∈ (s.map Row.t).dedup := List.mem_dedup.2 (List.mem_map.2 ⟨r, hr, rfl⟩)
          rw [← hperm.mem_iff] at this
          simpa using this
        have hall : ∀ r ∈ df, r.t = ta ∨ r.t = t1 := fun r hr => hall' r (hsp.mem_iff.2 hr)
        have hds : (keys s).Nodup := (hsp.map _).nodup_iff.2 hd
        -- at most one row per unit and period
        have hle1 : ∀ u t, obsCount s u t ≤ 1 := by
          intro u t
          have h := List.nodup_iff_count_le_one.1 hds (u, t)
          unfold keys at h
          rw [List.count, List.countP_map, List.countP_eq_length_filter] at h
          unfold obsCount
          refine le_trans (le_of_eq ?_) h
          congr 1
          apply List.filter_congr
          intro r _
          simp only [Function.comp]
          by_cases h1 : r.id = u <;> by_cases h2 : r.t = t <;> simp [h1, h2]
        have hunit : ∀ u, ((s.filter fun r => r.id = u).length = nUnique (s.map Row.t)) ↔
            obsCount s u ta = 1 ∧ obsCount s u t1 = 1 := by
          intro u
          rw [unit_split hlt.ne hall', hn2]
          have := hle1 u ta
          have := hle1 u t1
          omega
        have hpre : (b.filter fun r => ¬ r.t = t1) = atTime b ta := by
          unfold atTime
          apply List.filter_congr
          intro r hr
          rcases hbt r hr with h | h
          · simp [h, hlt.ne]
          · simp [h, hlt.ne']
        have hids : ∀ t, t = ta ∨ t = t1 → ∀ u, u ∈ (atTime b t).map Row.id ↔
            obsCount s u ta = 1 ∧ obsCount s u t1 = 1 := by
          intro t ht u
          rw [← hunit]
          unfold atTime
          simp only [List.mem_map, List.mem_filter, decide_eq_true_eq]
          constructor
          · rintro ⟨r, ⟨hr, _⟩, rfl⟩
            exact (mem_makeBalanced.1 hr).2
          · intro hu
            have h1 := (hunit u).1 hu
            have : 0 < obsCount s u t := by rcases ht with rfl | rfl <;> omega
            obtain ⟨r, hr, rfl, hrt⟩ := mem_obsCount.1 this
            exact ⟨r, ⟨mem_makeBalanced.2 ⟨hr, hu⟩, hrt⟩, rfl⟩
        have hnd : ∀ t, ((atTime b t).map Row.id).Nodup := by
          intro t
          rw [List.nodup_iff_count_le_one]
          intro u
          rw [count_map_id, atTime_count]
          refine le_trans ?_ (hle1 u t)
          unfold obsCount
          apply List.Sublist.length_le
          apply List.Sublist.filter
          rw [hb, makeBalanced_eq_filter]
          exact List.filter_sublist
        have hsorted : ∀ t, ((atTime b t).map Row.id).Pairwise (· ≤ ·) := by
          intro t
          have h0 : (s.map Row.id).Pairwise (· ≤ ·) := sorted_ids_of_leIT df
          refine List.Pairwise.sublist ?_ h0
          apply List.Sublist.map
          unfold atTime
          refine List.filter_sublist.trans ?_
          rw [hb, makeBalanced_eq_filter]
          exact List.filter_sublist
        have hsame : (atTime b t1).map Row.id = (atTime b ta).map Row.id := by
          apply eq_of_sorted_nodup (hsorted _) (hsorted _) (hnd _) (hnd _)
          intro u
          rw [hids t1 (Or.inr rfl), hids ta (Or.inl rfl)]
        have hrow : ∀ t, ∀ r ∈ atTime b t, r ∈ df ∧ r.t = t := by
          intro t r hr
          unfold atTime at hr
          simp only [List.mem_filter, decide_eq_true_eq] at hr
          exact ⟨hsp.mem_iff.1 (hbs r hr.1), hr.2⟩
        rw [hpre] at ho'
        have hpost : (b.filter fun r => r.t = t1) = atTime b t1 := rfl
        rw [hpost] at ho'
        refine ⟨ta, t1, hlt, hall, ?_, ?_⟩
        · rw [ho']
          refine ⟨hsame, hnd t1, hrow t1, hrow ta, ?_⟩
          dsimp only
          have := congrArg List.length hsame
          simpa using this.symm
        · intro u
          rw [ho']
          dsimp only
          rw [hids t1 (Or.inr rfl), obsCount_perm hsp, obsCount_perm hsp]
      · simp at ho
    · simp at ho

/-- Twenty complete units, five in each subgroup (unit `u`: cohort 0 or 7, partition 0 or 1); outcome
`100·u` before, `100·u + 1` after. -/
def exDdd : List (Row ℕ ℤ (ℤ × ℤ × ℤ)) :=
  (List.range 20).flatMap fun u =>
    [⟨u, 1, (if u < 10 then 0 else 7), (u % 2 : ℕ), 100 * u⟩,
      ⟨u, 2, (if u < 10 then 0 else 7), (u % 2 : ℕ), 100 * u + 1⟩]

/-- The same data, with unit 3's second row dated 1 and unit 6's first row dated 2: each of them
has two rows, in the same period. -/
def exDddDup : List (Row ℕ ℤ (ℤ × ℤ × ℤ)) :=
  exDdd.map fun r => if r.id = 3 then { r with t := 1 } else if r.id = 6 then { r with t := 2 } else r

example : nUnique (exDdd.map Row.t) = 2 ∧ (keys exDdd).Nodup ∧
    (dddBuild (fun v => v.1) (fun v => v.2.1) exDdd).map (changes (fun v => v.2.2))
      = some (List.replicate 20 1) := by decide +kernel

/-- The frame of such rows, as given to the validators. -/
def frameOf (l : List (Row ℕ ℤ (ℤ × ℤ × ℤ))) : Frame where
  cols := ["id", "t", "g", "p", "y"]
  numeric := fun _ => true
  rows := l.map fun r c => if c = "id" then .num r.id else if c = "t" then .num r.t
    else if c = "g" then .num r.val.1 else if c = "p" then .num r.val.2.1 else .num r.val.2.2

/-- **C96 (violated).** With two misdated rows the data pass validation, preprocessing succeeds, both
arrays have the same length, and the outcomes of one unit are subtracted from those of another: every
unit's outcome rises by 1, yet changes of 101 and 200 are computed. -/
theorem C96_misaligned_violated :
    accepted (dddValidate dddCfg (frameOf exDddDup)) ∧
    ∃ o, dddBuild (fun v => v.1) (fun v => v.2.1) exDddDup = some o ∧
      o.post.length = o.pre.length ∧ o.post.map Row.id ≠ o.pre.map Row.id ∧
      changes (fun v => v.2.2) o
        = [1, 1, 1, 101, 200, 200, 101, 1, 1, 1, 1, 1, 1, 1, 1, 1, 1, 1, 1, 1] := by
  refine ⟨by decide +kernel, ?_⟩
  have h : (dddBuild (fun v => v.1) (fun v => v.2.1) exDddDup).map (fun o =>
      decide (o.post.length = o.pre.length) && decide (o.post.map Row.id ≠ o.pre.map Row.id) &&
      decide (changes (fun v => v.2.2) o
        = [1, 1, 1, 101, 200, 200, 101, 1, 1, 1, 1, 1, 1, 1, 1, 1, 1, 1, 1, 1])) = some true := by
    decide +kernel
  rw [Option.map_eq_some_iff] at h
  obtain ⟨o, ho, h⟩ := h
  simp only [Bool.and_eq_true, decide_eq_true_eq] at h
  exact ⟨o, ho, h.1.1, h.1.2, h.2⟩

/-- The four subgroups of a triple difference with treated cohort `g`. -/
def InSubgroup (gOf pOf : β → ℤ) (g : ℤ) (r : Row ι ℤ β) (s : ℕ) : Prop :=
  (s = 4 ∧ gOf r.val = g ∧ pOf r.val = 1) ∨ (s = 3 ∧ gOf r.val = g ∧ pOf r.val ≠ 1) ∨
  (s = 2 ∧ gOf r.val ≠ g ∧ pOf r.val = 1) ∨ (s = 1 ∧ gOf r.val ≠ g ∧ pOf r.val ≠ 1)

theorem dddSubgroup_iff (gOf pOf : β → ℤ) (g : ℤ) (r : Row ι ℤ β) (s : ℕ) :
    dddSubgroup g (gOf r.val) (pOf r.val) = s ↔ InSubgroup gOf pOf g r s := by
  unfold dddSubgroup InSubgroup
  by_cases h1 : gOf r.val = g <;> by_cases h2 : pOf r.val = 1 <;> simp [h1, h2, eq_comm]

/-- **C97.** When the cohorts are 0 and `g > 0` (as validation ensures), preprocessing of the
two-period triple difference succeeds only if the treated cohort `g` is represented and every
subgroup represented in the data it returns has at least five units. -/
theorem C97_subgroups (gOf pOf : β → ℤ) (df : List (Row ι ℤ β)) (o : TwoData ι β) (g : ℤ) (hg : 0 < g)
    (hdf : ∀ r ∈ df, gOf r.val = 0 ∨ gOf r.val = g) (ho : dddBuild gOf pOf df = some o) :
    (∃ r ∈ o.pre ++ o.post, gOf r.val = g) ∧
    ∀ s, (∃ r ∈ o.pre ++ o.post, InSubgroup gOf pOf g r s) →
      ∃ us : List ι, us.Nodup ∧ 5 ≤ us.length ∧
        ∀ u ∈ us, ∃ r ∈ o.pre ++ o.post, r.id = u ∧ InSubgroup gOf pOf g r s := by
  unfold dddBuild at ho
  dsimp only at ho
  set b := makeBalanced (df.insertionSort leIT) with hb
  split at ho
  · simp at ho
  · split at ho
    · rename_i ta t1 tl x tv gl hts hgl
      split at ho
      · rename_i hall
        have ho' := (Option.some.inj ho).symm
        have hmem : ∀ r, r ∈ o.pre ++ o.post ↔ r ∈ b := by
          intro r
          rw [ho']
          simp only [List.mem_append, List.mem_filter, decide_eq_true_eq]
          by_cases h : r.t = t1 <;> simp [h]
        have hperm : ((b.map fun r => gOf r.val).dedup).Perm (x :: tv :: gl) := by
          rw [← hgl]; exact (List.perm_insertionSort _ _).symm
        have hval : ∀ y ∈ x :: tv :: gl, y = 0 ∨ y = g := by
          intro y hy
          have := hperm.mem_iff.2 hy
          rw [List.mem_dedup, List.mem_map] at this
          obtain ⟨r, hr, rfl⟩ := this
          exact hdf r ((List.perm_insertionSort _ _).mem_iff.1 (mem_makeBalanced.1 hr).1)
        have htv : tv = g := by
          have hs : (x :: tv :: gl).Pairwise (· ≤ ·) := by
            rw [← hgl]; exact List.pairwise_insertionSort _ _
          have hn : (x :: tv :: gl).Nodup := hperm.nodup_iff.1 (List.nodup_dedup _)
          have hle : x ≤ tv := (List.pairwise_cons.1 hs).1 tv (by simp)
          have hne : x ≠ tv := by
            intro h
            rw [h] at hn
            simp at hn
          rcases hval x (by simp) with h1 | h1 <;> rcases hval tv (by simp) with h2 | h2 <;> omega
        subst htv
        refine ⟨?_, ?_⟩
        · have : tv ∈ (b.map fun r => gOf r.val).dedup := hperm.mem_iff.2 (by simp)
          rw [List.mem_dedup, List.mem_map] at this
          obtain ⟨r, hr, h⟩ := this
          exact ⟨r, (hmem r).2 hr, h⟩
        · rintro s ⟨r, hr, hrs⟩
          rw [hmem] at hr
          rw [← dddSubgroup_iff] at hrs
          rw [List.all_eq_true] at hall
          have := hall (s, nUnique ((b.filter fun r => dddSubgroup tv (gOf r.val) (pOf r.val) = s).map Row.id))
            (by
              unfold dddCounts
              rw [List.mem_map]
              exact ⟨s, List.mem_dedup.2 (List.mem_map.2 ⟨r, hr, hrs⟩), rfl⟩)
          rw [decide_eq_true_eq] at this
          refine ⟨_, List.nodup_dedup _, this, ?_⟩
          intro u hu
          rw [List.mem_dedup, List.mem_map] at hu
          obtain ⟨q, hq, rfl⟩ := hu
          rw [List.mem_filter, decide_eq_true_eq] at hq
          exact ⟨q, (hmem q).2 hq.1, rfl, (dddSubgroup_iff _ _ _ _ _).1 hq.2⟩
      · simp at ho
    · simp at ho

example : (∀ r ∈ exDdd, r.val.1 = 0 ∨ r.val.1 = 7) ∧
    (dddBuild (fun v => v.1) (fun v => v.2.1) exDdd).isSome = true ∧
    (dddBuild (fun v => v.1) (fun v => v.2.1) (exDdd.filter fun r => r.id ≠ 3)).isSome = false := by
  decide +kernel

/-- **C97 (empty subgroup, violated).** The size check only sees subgroups that occur: data without
any ineligible unit in the treated cohort pass it (four units there would be rejected). -/
theorem C97_empty_subgroup_violated :
    (∃ o, dddBuild (fun v => v.1) (fun v => v.2.1) (exDdd.filter fun r => ¬ (r.val.1 = 7 ∧ r.val.2.1 = 0)) = some o ∧
      ∀ r ∈ o.pre ++ o.post, ¬ InSubgroup (fun v => v.1) (fun v => v.2.1) 7 r 3) ∧
    dddBuild (fun v => v.1) (fun v => v.2.1) (exDdd.filter fun r => ¬ r.id = 10) = none := by
  constructor
  · have h : (dddBuild (fun v => v.1) (fun v => v.2.1)
        (exDdd.filter fun r => ¬ (r.val.1 = 7 ∧ r.val.2.1 = 0))).map (fun o =>
          (o.pre ++ o.post).all fun r => !decide (dddSubgroup 7 r.val.1 r.val.2.1 = 3)) = some true := by
      decide +kernel
    rw [Option.map_eq_some_iff] at h
    obtain ⟨o, ho, h⟩ := h
    refine ⟨o, ho, ?_⟩
    intro r hr hs
    rw [List.all_eq_true] at h
    have := h r hr
    rw [← dddSubgroup_iff] at hs
    simp [hs] at this
  · have h : (dddBuild (fun v => v.1) (fun v => v.2.1) (exDdd.filter fun r => ¬ r.id = 10)).isSome = false := by
      decide +kernel
    simpa using h

end Verif.Valid
