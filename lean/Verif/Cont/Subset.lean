import Verif.Cont.Frame

set_option linter.unusedSectionVars false
set_option linter.unusedSimpArgs false

/-!
# Continuous treatment: what a cell compares (C98), where its influence goes (C106), block resampling (C107) and
`setup_pte` (C108)
-/

namespace Verif.Cont

open Verif.Panel Verif.Prep

variable {ι K : Type*}

lemma basePeriod_varying_lt (a g tp : ℤ) : basePeriod false a g tp < tp := by
  unfold basePeriod
  by_cases h : tp < g - a
  · simp [h]
  · simp only [Bool.not_false, Bool.true_and, h, decide_false, Bool.false_eq_true, if_false]; omega

lemma mem_subset [Zero K] {u : Bool} {cg : ControlGroup} {a g tp : ℤ} {df : List (Rec ι K)} {r : Rec ι K} :
    r ∈ subset u cg a g tp df ↔ ∃ r0 ∈ df, unitIn cg g tp r0 = true ∧ (r0.t = tp ∨ r0.t = basePeriod u a g tp) ∧
      maskDose g r0 = r := by
  unfold subset
  simp only [List.mem_map, List.mem_filter, Bool.or_eq_true, decide_eq_true_eq]
  constructor
  · rintro ⟨r0, ⟨⟨h1, h2⟩, h3⟩, h4⟩; exact ⟨r0, h1, h2, h3, h4⟩
  · rintro ⟨r0, h1, h2, h3, h4⟩; exact ⟨r0, ⟨⟨h1, h2⟩, h3⟩, h4⟩

lemma unitIn_spec {cg : ControlGroup} {g tp : ℤ} {r : Rec ι K} (h : unitIn cg g tp r = true) :
    cohort r = (g : WithTop ℤ) ∨ (tp : WithTop ℤ) < cohort r := by
  cases cg <;> simp only [unitIn, Bool.or_eq_true, decide_eq_true_eq] at h
  · rcases h with h | h
    · exact Or.inl h
    · right; rw [h]; exact WithTop.coe_lt_top _
  · exact h

/-- **C98 (comparison units).** With the varying base every row of a cell that is not of the cell's cohort belongs to a
unit still untreated in the later period compared — hence in both — and the cohort's own base period precedes its
treatment (and its anticipation window). -/
theorem C98_comparison_untreated [Zero K] (cg : ControlGroup) (a g tp : ℤ) (ha : 0 ≤ a) (df : List (Rec ι K))
    (r : Rec ι K) (hr : r ∈ subset false cg a g tp df) :
    (r.t = tp ∨ r.t = basePeriod false a g tp) ∧ basePeriod false a g tp < tp ∧ basePeriod false a g tp < g - a ∧
      (cohort r ≠ (g : WithTop ℤ) → (tp : WithTop ℤ) < cohort r ∧ (r.t : WithTop ℤ) < cohort r ∧ dose r = 0) := by
  obtain ⟨r0, h0, hu, ht, rfl⟩ := mem_subset.1 hr
  refine ⟨ht, basePeriod_varying_lt a g tp, ?_, ?_⟩
  · unfold basePeriod
    by_cases h : tp < g - a
    · simp only [Bool.not_false, Bool.true_and, h, decide_true, if_true]; omega
    · simp only [Bool.not_false, Bool.true_and, h, decide_false, Bool.false_eq_true, if_false]; omega
  · intro hne
    have hne' : cohort r0 ≠ (g : WithTop ℤ) := hne
    have hlt := (unitIn_spec hu).resolve_left hne'
    refine ⟨hlt, ?_, ?_⟩
    · rcases ht with ht | ht
      · show (r0.t : WithTop ℤ) < cohort r0
        rw [ht]; exact hlt
      · show (r0.t : WithTop ℤ) < cohort r0
        rw [ht]
        exact lt_trans (WithTop.coe_lt_coe.2 (basePeriod_varying_lt a g tp)) hlt
    · show dose (maskDose g r0) = 0
      unfold maskDose
      rw [if_neg hne']; rfl

/-- **C98 (violated, universal base).** With the universal base, any unit first treated after the evaluated period but no
later than the base period is used as a not-yet-treated comparison *with its treated outcome* in the base period. -/
theorem C98_universal_violated [Zero K] (a g tp : ℤ) (df : List (Rec ι K)) (r : Rec ι K) (hr : r ∈ df)
    (hlate : (tp : WithTop ℤ) < cohort r) (hearly : cohort r ≤ ((g - a - 1 : ℤ) : WithTop ℤ))
    (ht : r.t = g - a - 1) :
    maskDose g r ∈ subset true .notYetTreated a g tp df ∧ cohort (maskDose g r) ≤ ((maskDose g r).t : WithTop ℤ) := by
  refine ⟨mem_subset.2 ⟨r, hr, ?_, Or.inr ?_, rfl⟩, ?_⟩
  · simp [unitIn, hlate]
  · simp [basePeriod, ht]
  · show cohort r ≤ (r.t : WithTop ℤ)
    rw [ht]; exact hearly

/-- **C98 (violated, anticipation).** A unit first treated within the anticipation horizon after the evaluated period is
used as a comparison unit in that period, although it already anticipates. -/
theorem C98_anticipation_violated [Zero K] (u : Bool) (a g tp : ℤ) (df : List (Rec ι K)) (r : Rec ι K) (hr : r ∈ df)
    (hlate : (tp : WithTop ℤ) < cohort r) (_hant : cohort r ≤ ((tp + a : ℤ) : WithTop ℤ)) (ht : r.t = tp) :
    maskDose g r ∈ subset u .notYetTreated a g tp df :=
  mem_subset.2 ⟨r, hr, by simp [unitIn, hlate], Or.inl ht, rfl⟩

/-! ### First differences -/

lemma mem_dyFrom [DecidableEq ι] [Sub K] {before l : List (Rec ι K)} {e : Rec ι K × Option K}
    (h : e ∈ dyFrom before l) :
    ∃ pre post, l = pre ++ e.1 :: post ∧ e.2 = (prevOf (before ++ pre) e.1).map fun p => outcome e.1 - outcome p := by
  induction l generalizing before with
  | nil => simp [dyFrom] at h
  | cons r rs ih =>
    simp only [dyFrom, List.mem_cons] at h
    rcases h with rfl | h
    · exact ⟨[], rs, rfl, by simp⟩
    · obtain ⟨pre, post, e1, e2⟩ := ih h
      exact ⟨r :: pre, post, by rw [e1]; rfl, by rw [e2]; simp⟩

lemma dyFrom_map_fst [DecidableEq ι] [Sub K] (before l : List (Rec ι K)) : (dyFrom before l).map Prod.fst = l := by
  induction l generalizing before with
  | nil => rfl
  | cons r rs ih => simp [dyFrom, ih]

lemma leIT_total [LinearOrder ι] : Std.Total (leIT (ι := ι) (K := K)) := ⟨fun a b => by
  unfold leIT
  rcases lt_trichotomy a.id b.id with h | h | h
  · exact Or.inl (Or.inl h)
  · rcases le_total a.t b.t with h2 | h2
    · exact Or.inl (Or.inr ⟨h, h2⟩)
    · exact Or.inr (Or.inr ⟨h.symm, h2⟩)
  · exact Or.inr (Or.inl h)⟩

lemma leIT_trans [LinearOrder ι] : IsTrans (Rec ι K) leIT := ⟨fun a b c h1 h2 => by
  unfold leIT at *
  rcases h1 with h1 | ⟨e1, h1⟩ <;> rcases h2 with h2 | ⟨e2, h2⟩
  · exact Or.inl (h1.trans h2)
  · exact Or.inl (e2 ▸ h1)
  · exact Or.inl (e1 ▸ h2)
  · exact Or.inr ⟨e1.trans e2, h1.trans h2⟩⟩

lemma sorted_subset [LinearOrder ι] [Zero K] (l : List (Rec ι K)) : (l.insertionSort leIT).Pairwise leIT := by
  haveI := leIT_total (ι := ι) (K := K)
  haveI := leIT_trans (ι := ι) (K := K)
  exact List.pairwise_insertionSort _ _

lemma keys_subset [DecidableEq ι] [Zero K] {u : Bool} {cg : ControlGroup} {a g tp : ℤ} {df : List (Rec ι K)}
    (hn : (keys df).Nodup) : (keys (subset u cg a g tp df)).Nodup := by
  unfold keys subset
  rw [List.map_map]
  have : ((fun r : Rec ι K => (r.id, r.t)) ∘ maskDose g) = fun r => (r.id, r.t) := by
    funext r; rfl
  rw [this]
  unfold keys at hn
  exact hn.sublist (((List.filter_sublist).trans List.filter_sublist).map _)

/-- **C98 (changes).** In a panel without duplicate `(id, period)` rows in which every unit is observed in both
compared periods, a varying-base cell contains exactly one entry per eligible unit of period `tp`, in increasing order of
id, and the entry's change is the unit's outcome in `tp` minus its outcome in the base period; the dose is the unit's own
dose in `tp` if it is of cohort `g` and zero otherwise. -/
theorem C98_changes [LinearOrder ι] [Zero K] [Sub K] (cg : ControlGroup) (a g tp : ℤ) (df : List (Rec ι K))
    (hn : (keys df).Nodup)
    (hb : ∀ r ∈ df, r.t = tp → ∃ q ∈ df, q.id = r.id ∧ q.t = basePeriod false a g tp ∧ cohort q = cohort r) :
    ((cellData false cg a g tp df).map fun e => e.1.id).Pairwise (· < ·) ∧
    (∀ u, u ∈ ((cellData false cg a g tp df).map fun e => e.1.id) ↔
      ∃ r ∈ df, r.t = tp ∧ r.id = u ∧ unitIn cg g tp r = true) ∧
    ∀ e ∈ cellData false cg a g tp df, ∃ r1 ∈ df, ∃ r0 ∈ df, r1.id = e.1.id ∧ r0.id = e.1.id ∧ r1.t = tp ∧
      r0.t = basePeriod false a g tp ∧ dose e.1 = (if cohort r1 = (g : WithTop ℤ) then dose r1 else 0) ∧
      e.2 = some (outcome r1 - outcome r0) := by
  set L := (subset false cg a g tp df).insertionSort leIT with hL
  have hperm : L.Perm (subset false cg a g tp df) := List.perm_insertionSort _ _
  have hkn : (keys L).Nodup := (hperm.map _).nodup_iff.2 (keys_subset hn)
  have hsort : L.Pairwise leIT := sorted_subset _
  have hfst : (cellData false cg a g tp df).map Prod.fst = L.filter fun r => decide (r.t = tp) := by
    unfold cellData
    rw [← hL]
    conv_rhs => rw [← dyFrom_map_fst [] L]
    rw [List.filter_map]; rfl
  have hids : ((cellData false cg a g tp df).map fun e => e.1.id) =
      (L.filter fun r => decide (r.t = tp)).map Row.id := by
    rw [← hfst, List.map_map]; rfl
  refine ⟨?_, ?_, ?_⟩
  · rw [hids, List.pairwise_map]
    have h1 : (L.filter fun r => decide (r.t = tp)).Pairwise leIT := hsort.filter _
    have h2 : (L.filter fun r => decide (r.t = tp)).Pairwise fun x y => (x.id, x.t) ≠ (y.id, y.t) := by
      have : L.Pairwise fun x y => (x.id, x.t) ≠ (y.id, y.t) := by
        have := hkn
        unfold keys List.Nodup at this
        rwa [List.pairwise_map] at this
      exact this.filter _
    refine List.Pairwise.imp_of_mem ?_ (h1.and h2)
    rintro x y hx hy ⟨hxy, hne⟩
    have hx' : x.t = tp := by simpa using (List.mem_filter.1 hx).2
    have hy' : y.t = tp := by simpa using (List.mem_filter.1 hy).2
    rcases hxy with h | ⟨h, _⟩
    · exact h
    · exact absurd (Prod.ext h (hx'.trans hy'.symm)) hne
  · intro u
    rw [hids]
    simp only [List.mem_map, List.mem_filter, decide_eq_true_eq]
    constructor
    · rintro ⟨x, ⟨hx, hxt⟩, rfl⟩
      obtain ⟨r0, h0, hu, _, rfl⟩ := mem_subset.1 (hperm.mem_iff.1 hx)
      exact ⟨r0, h0, hxt, rfl, hu⟩
    · rintro ⟨r, hr, ht, rfl, hu⟩
      exact ⟨maskDose g r, ⟨hperm.mem_iff.2 (mem_subset.2 ⟨r, hr, hu, Or.inl ht, rfl⟩), ht⟩, rfl⟩
  · intro e he
    unfold cellData at he
    rw [← hL] at he
    obtain ⟨hmem, het⟩ := List.mem_filter.1 he
    have het : e.1.t = tp := by simpa using het
    obtain ⟨pre, post, hsplit, hdy⟩ := mem_dyFrom hmem
    rw [List.nil_append] at hdy
    have heL : e.1 ∈ L := by rw [hsplit]; simp
    obtain ⟨r1, h1, hu1, _, hm1⟩ := mem_subset.1 (hperm.mem_iff.1 heL)
    have ht1 : r1.t = tp := by rw [← het, ← hm1]; rfl
    obtain ⟨q, hq, hqid, hqt, hqc⟩ := hb r1 h1 ht1
    have hid1 : r1.id = e.1.id := by rw [← hm1]; rfl
    -- the base row of the unit lies before the evaluated row
    have hqL : maskDose g q ∈ L := by
      refine hperm.mem_iff.2 (mem_subset.2 ⟨q, hq, ?_, Or.inr hqt, rfl⟩)
      cases cg <;> simp only [unitIn, hqc] at hu1 ⊢ <;> exact hu1
    have hqpre : maskDose g q ∈ pre := by
      rw [hsplit] at hqL
      rcases List.mem_append.1 hqL with h | h
      · exact h
      · exfalso
        have hlt := basePeriod_varying_lt a g tp
        have hqt' : (maskDose g q).t = basePeriod false a g tp := hqt
        rcases List.mem_cons.1 h with h | h
        · rw [h, het] at hqt'; omega
        · rw [hsplit] at hsort
          have := (List.pairwise_cons.1 (List.pairwise_append.1 hsort).2.1).1 _ h
          have hqid' : (maskDose g q).id = e.1.id := hqid.trans hid1
          rcases this with h3 | ⟨_, h3⟩
          · rw [hqid'] at h3; exact lt_irrefl _ h3
          · rw [het, hqt'] at h3; omega
    have hne : (pre.filter fun x => decide (x.id = e.1.id)) ≠ [] := by
      apply List.ne_nil_of_mem (a := maskDose g q)
      refine List.mem_filter.2 ⟨hqpre, ?_⟩
      have : (maskDose g q).id = e.1.id := hqid.trans hid1
      simpa using this
    obtain ⟨p, hp⟩ := Option.ne_none_iff_exists'.1 (mt List.getLast?_eq_none_iff.1 hne)
    have hpm := List.mem_of_getLast? hp
    obtain ⟨hppre, hpid⟩ := List.mem_filter.1 hpm
    have hpid : p.id = e.1.id := by simpa using hpid
    have hpL : p ∈ L := by rw [hsplit]; exact List.mem_append_left _ hppre
    obtain ⟨r0, h0, _, ht0, hm0⟩ := mem_subset.1 (hperm.mem_iff.1 hpL)
    have hpt : p.t ≠ tp := by
      intro hpt
      rw [hsplit] at hkn
      unfold keys at hkn
      rw [List.map_append, List.nodup_append] at hkn
      refine hkn.2.2 (p.id, p.t) (List.mem_map.2 ⟨p, hppre, rfl⟩) (e.1.id, e.1.t) (by simp) ?_
      rw [hpid, hpt, het]
    have ht0' : r0.t = basePeriod false a g tp := by
      rcases ht0 with h | h
      · exact absurd (by rw [← hm0]; exact h) hpt
      · exact h
    refine ⟨r1, h1, r0, h0, hid1, by rw [← hpid, ← hm0]; rfl, ht1, ht0', ?_, ?_⟩
    · rw [← hm1]; rfl
    · rw [hdy]
      unfold prevOf
      rw [hp, ← hm0, ← hm1]
      rfl

/-- **C98 (violated, universal pre-treatment cells).** With the universal base, no unit of a cell before the base period
has a first difference: every change is null, so no pre-treatment effect can be computed. -/
theorem C98_universal_pre_violated [LinearOrder ι] [Zero K] [Sub K] (cg : ControlGroup) (a g tp : ℤ)
    (df : List (Rec ι K)) (hn : (keys df).Nodup) (hpre : tp < g - a - 1) :
    ∀ e ∈ cellData true cg a g tp df, e.2 = none := by
  intro e he
  set L := (subset true cg a g tp df).insertionSort leIT with hL
  have hperm : L.Perm (subset true cg a g tp df) := List.perm_insertionSort _ _
  have hkn : (keys L).Nodup := (hperm.map _).nodup_iff.2 (keys_subset hn)
  have hsort : L.Pairwise leIT := sorted_subset _
  unfold cellData at he
  rw [← hL] at he
  obtain ⟨hmem, het⟩ := List.mem_filter.1 he
  have het : e.1.t = tp := by simpa using het
  obtain ⟨pre, post, hsplit, hdy⟩ := mem_dyFrom hmem
  rw [List.nil_append] at hdy
  rw [hdy]
  have : prevOf pre e.1 = none := by
    unfold prevOf
    rw [List.getLast?_eq_none_iff, List.filter_eq_nil_iff]
    intro p hp hpid
    have hpid : p.id = e.1.id := by simpa using hpid
    have hpL : p ∈ L := by rw [hsplit]; exact List.mem_append_left _ hp
    obtain ⟨r0, h0, _, ht0, hm0⟩ := mem_subset.1 (hperm.mem_iff.1 hpL)
    have hle : leIT p e.1 := by
      rw [hsplit] at hsort
      exact (List.pairwise_append.1 hsort).2.2 p hp e.1 (by simp)
    have hpt : p.t ≤ tp := by
      rcases hle with h | ⟨_, h⟩
      · rw [hpid] at h; exact absurd h (lt_irrefl _)
      · rwa [het] at h
    have hpt2 : p.t ≠ tp := by
      intro hpt
      rw [hsplit] at hkn
      unfold keys at hkn
      rw [List.map_append, List.nodup_append] at hkn
      refine hkn.2.2 (p.id, p.t) (List.mem_map.2 ⟨p, hp, rfl⟩) (e.1.id, e.1.t) (by simp) ?_
      rw [hpid, hpt, het]
    have hp0 : r0.t = p.t := by rw [← hm0]; rfl
    rcases ht0 with h | h
    · exact hpt2 (hp0 ▸ h)
    · have : basePeriod true a g tp = g - a - 1 := by simp [basePeriod]
      omega
  rw [this]; rfl

/-- Cohorts 2 and 4 and a never-treated unit over periods 1..4. -/
def panel4 : List (Rec ℕ ℚ) :=
  (List.range 4).flatMap fun i : ℕ =>
    [⟨1, i + 1, (((4 : ℤ) : WithTop ℤ), (10 + i * i, 1))⟩, ⟨2, i + 1, (((2 : ℤ) : WithTop ℤ), (20 + 3 * i, 2))⟩,
     ⟨3, i + 1, (⊤, (5, 0))⟩]

example : (keys panel4).Nodup ∧
    (∀ r ∈ panel4, r.t = 2 → ∃ q ∈ panel4, q.id = r.id ∧ q.t = basePeriod false 0 2 2 ∧ cohort q = cohort r) ∧
    (cellData false .notYetTreated 0 2 2 panel4).map (fun e => (e.1.id, dose e.1, e.2)) =
      [(1, 0, some 1), (2, 2, some 3), (3, 0, some 0)] := by decide +kernel
example : ∃ r ∈ panel4, ((1 : ℤ) : WithTop ℤ) < cohort r ∧ cohort r ≤ ((4 - 0 - 1 : ℤ) : WithTop ℤ) ∧ r.t = 4 - 0 - 1 := by
  decide +kernel
example : (1 : ℤ) < 4 - 0 - 1 ∧ (cellData true .notYetTreated 0 4 1 panel4).map (fun e => (e.1.id, e.2)) =
    [(1, none), (2, none), (3, none)] := by decide +kernel

/-! ### C106: placement of influence values -/

lemma scatter_length [Zero K] (ms : List Bool) (vs : List K) : (scatter ms vs).length = ms.length := by
  induction ms generalizing vs with
  | nil => rfl
  | cons m ms ih =>
    cases m
    · simp [scatter, ih]
    · cases vs <;> simp [scatter, ih]

lemma scatter_zip [DecidableEq ι] [Zero K] (all : List ι) (sub : List (ι × K)) (S : ι → Bool)
    (h : all.filter S = sub.map Prod.fst) :
    ∀ e ∈ all.zip (scatter (all.map S) (sub.map Prod.snd)), (e ∈ sub ∨ (S e.1 = false ∧ e.2 = 0)) := by
  induction all generalizing sub with
  | nil => simp
  | cons u us ih =>
    intro e he
    cases hS : S u with
    | false =>
      rw [List.map_cons, hS] at he
      simp only [scatter, List.zip_cons_cons, List.mem_cons] at he
      rcases he with rfl | he
      · exact Or.inr ⟨hS, rfl⟩
      · rw [List.filter_cons, hS] at h
        exact ih sub (by simpa using h) e he
    | true =>
      rw [List.filter_cons, hS] at h
      cases sub with
      | nil => simp at h
      | cons s ss =>
        simp only [if_true, List.map_cons, List.cons.injEq] at h
        rw [List.map_cons, hS] at he
        simp only [List.map_cons, scatter, List.zip_cons_cons, List.mem_cons] at he
        rcases he with rfl | he
        · left; rw [h.1]; simp
        · rcases ih ss h.2 e he with h3 | h3
          · exact Or.inl (List.mem_cons_of_mem _ h3)
          · exact Or.inr h3

/-- **C106.** If the list of all ids used to place influence values happens to be in increasing order, then every unit's
row of the influence matrix holds that unit's own influence value in the cell, and zero if it is not in the cell. -/
theorem C106_sorted [LinearOrder ι] [Zero K] (allIds : List ι) (sub : List (ι × K))
    (hall : allIds.Pairwise (· < ·)) (hsub : (sub.map Prod.fst).Pairwise (· < ·))
    (hin : ∀ u ∈ sub.map Prod.fst, u ∈ allIds) :
    (placeInfluence allIds sub).length = allIds.length ∧
    ∀ e ∈ allIds.zip (placeInfluence allIds sub), e ∈ sub ∨ (e.1 ∉ sub.map Prod.fst ∧ e.2 = 0) := by
  unfold placeInfluence
  refine ⟨by rw [scatter_length, List.length_map], ?_⟩
  have hf : allIds.filter (fun u => decide (u ∈ sub.map Prod.fst)) = sub.map Prod.fst := by
    have h1 : (allIds.filter (fun u => decide (u ∈ sub.map Prod.fst))).Pairwise (· < ·) := hall.filter _
    have hp : (allIds.filter (fun u => decide (u ∈ sub.map Prod.fst))).Perm (sub.map Prod.fst) := by
      rw [List.perm_ext_iff_of_nodup (h1.imp fun h => ne_of_lt h) (hsub.imp fun h => ne_of_lt h)]
      intro u
      simp only [List.mem_filter, decide_eq_true_eq]
      exact ⟨fun h => h.2, fun h => ⟨hin u h, h⟩⟩
    exact hp.eq_of_pairwise (fun a b _ _ h1 h2 => absurd h1 (not_lt.2 h2.le)) h1 hsub
  intro e he
  have := scatter_zip allIds sub (fun u => decide (u ∈ sub.map Prod.fst)) hf e he
  simpa using this

/-- **C106 (violated).** Nothing in the code fixes the order of `data["id"].unique()`; if it is the order of first
appearance in the frame (sorted by period, cohort, id), influence values are assigned to the wrong units. -/
theorem C106_appearance_order_violated :
    ∃ (df : List (Rec ℕ ℚ)) (sub : List (ℕ × ℚ)), sortTGI df = df ∧
      sub.map Prod.fst = (cellData false .notYetTreated 0 3 3 df).map (fun e => e.1.id) ∧
      uniqStable (df.map Row.id) = [2, 3, 1] ∧
      placeInfluence (uniqStable (df.map Row.id)) sub = [10, 20, 30] ∧ sub = [(1, 10), (2, 20), (3, 30)] := by
  refine ⟨[⟨2, 2, ((3 : ℤ), (1, 1))⟩, ⟨3, 2, ((3 : ℤ), (2, 2))⟩, ⟨1, 2, (⊤, (3, 0))⟩,
    ⟨2, 3, ((3 : ℤ), (4, 1))⟩, ⟨3, 3, ((3 : ℤ), (4, 2))⟩, ⟨1, 3, (⊤, (5, 0))⟩], [(1, 10), (2, 20), (3, 30)], ?_, ?_, ?_, ?_, rfl⟩
    <;> decide +kernel

example : ([1, 2, 3, 4] : List ℕ).Pairwise (· < ·) ∧
    placeInfluence [1, 2, 3, 4] [((2 : ℕ), (7 : ℚ)), (4, 9)] = [0, 7, 0, 9] := by decide +kernel

/-! ### C107: block bootstrap -/

/-- **C107.** A bootstrap sample has exactly one new unit per draw: the rows of new unit `k` are exactly the rows of the
`k`-th drawn unit (same periods, same values, same order) and no row carries another identifier, so a unit drawn twice
enters as two distinct complete units. -/
theorem C107_block_sample [DecidableEq ι] {τ β : Type*} (df : List (Row ι τ β)) (drawn : List ι) :
    (∀ k (hk : k < drawn.length), ((blockSample df drawn).filter fun r => r.id = k).map (fun r => (r.t, r.val)) =
      (df.filter fun r => r.id = drawn[k]).map (fun r => (r.t, r.val))) ∧
    (∀ r ∈ blockSample df drawn, r.id < drawn.length) := by
  have gen : ∀ (l : List ι) (s : ℕ),
      (∀ k (hk : k < l.length), (((l.zipIdx s).flatMap fun p => (df.filter fun r => r.id = p.1).map fun r =>
        (⟨p.2, r.t, r.val⟩ : Row ℕ τ β)).filter fun r => r.id = s + k).map (fun r => (r.t, r.val)) =
        (df.filter fun r => r.id = l[k]).map (fun r => (r.t, r.val))) ∧
      ∀ r ∈ ((l.zipIdx s).flatMap fun p => (df.filter fun r => r.id = p.1).map fun r =>
        (⟨p.2, r.t, r.val⟩ : Row ℕ τ β)), s ≤ r.id ∧ r.id < s + l.length := by
    intro l
    induction l with
    | nil => intro s; simp
    | cons u us ih =>
      intro s
      obtain ⟨ih1, ih2⟩ := ih (s + 1)
      refine ⟨?_, ?_⟩
      · intro k hk
        simp only [List.zipIdx_cons, List.flatMap_cons, List.filter_append, List.map_append]
        cases k with
        | zero =>
          have h1 : (((us.zipIdx (s + 1)).flatMap fun p => (df.filter fun r => r.id = p.1).map fun r =>
              (⟨p.2, r.t, r.val⟩ : Row ℕ τ β)).filter fun r => r.id = s + 0) = [] := by
            rw [List.filter_eq_nil_iff]
            intro r hr
            have := (ih2 r hr).1
            simp only [decide_eq_true_eq]; omega
          rw [h1]
          simp only [List.map_nil, List.append_nil, add_zero, List.getElem_cons_zero, List.filter_map, List.map_map]
          have : (List.filter ((fun r : Row ℕ τ β => decide (r.id = s)) ∘ fun r : Row ι τ β => (⟨s, r.t, r.val⟩ : Row ℕ τ β))
              (df.filter fun r => r.id = u)) = df.filter fun r => r.id = u := by
            rw [List.filter_eq_self]; intro r _; simp
          rw [this]; rfl
        | succ k =>
          have h1 : (((df.filter fun r => r.id = u).map fun r => (⟨s, r.t, r.val⟩ : Row ℕ τ β)).filter
              fun r => r.id = s + (k + 1)) = [] := by
            rw [List.filter_eq_nil_iff]
            intro r hr
            obtain ⟨q, _, rfl⟩ := List.mem_map.1 hr
            simp
          rw [h1, List.map_nil, List.nil_append, show s + (k + 1) = s + 1 + k by omega]
          exact ih1 k (by simpa using hk)
      · intro r hr
        simp only [List.zipIdx_cons, List.flatMap_cons, List.mem_append] at hr
        rcases hr with hr | hr
        · obtain ⟨q, _, rfl⟩ := List.mem_map.1 hr
          simp
        · have := ih2 r hr
          simp only [List.length_cons]; omega
  obtain ⟨h1, h2⟩ := gen drawn 0
  refine ⟨fun k hk => ?_, fun r hr => ?_⟩
  · have := h1 k hk
    simpa [blockSample] using this
  · have := (h2 r hr).2
    simpa using this

example : blockSample ([⟨7, 1, 10⟩, ⟨8, 1, 20⟩, ⟨7, 2, 11⟩, ⟨8, 2, 21⟩] : List (Row ℕ ℤ ℚ)) [8, 8] =
    [⟨0, 1, 20⟩, ⟨0, 2, 21⟩, ⟨1, 1, 20⟩, ⟨1, 2, 21⟩] := by decide +kernel

/-! ### C108: `setup_pte` -/

lemma sortedDistinct {α : Type*} [LinearOrder α] (l : List α) :
    (l.dedup.insertionSort (· ≤ ·)).Pairwise (· < ·) ∧ ∀ x, x ∈ l.dedup.insertionSort (· ≤ ·) ↔ x ∈ l := by
  have h1 : (l.dedup.insertionSort (· ≤ ·)).Pairwise (· ≤ ·) := List.pairwise_insertionSort _ _
  have h2 : (l.dedup.insertionSort (· ≤ ·)).Nodup := (List.perm_insertionSort _ _).nodup_iff.2 (List.nodup_dedup l)
  refine ⟨(h1.and h2).imp fun ⟨a, b⟩ => lt_of_le_of_ne a b, fun x => ?_⟩
  rw [(List.perm_insertionSort _ _).mem_iff, List.mem_dedup]

/-- The groups `setup_pte` keeps are all values of the cohort column except the smallest. -/
theorem mem_setupGroups (gs : List (WithTop ℤ)) (g : WithTop ℤ) :
    g ∈ setupGroups gs ↔ g ∈ gs ∧ ∃ h ∈ gs, h < g := by
  unfold setupGroups
  obtain ⟨hs, hm⟩ := sortedDistinct gs
  cases hl : gs.dedup.insertionSort (· ≤ ·) with
  | nil =>
    have : ∀ x, x ∉ gs := fun x hx => by have := (hm x).2 hx; rw [hl] at this; simp at this
    simp [this]
  | cons x xs =>
    rw [hl] at hs hm
    obtain ⟨h1, h2⟩ := List.pairwise_cons.1 hs
    simp only [List.drop_one, List.tail_cons]
    constructor
    · intro hg
      exact ⟨(hm g).1 (List.mem_cons_of_mem _ hg), x, (hm x).1 (by simp), h1 g hg⟩
    · rintro ⟨hg, h, hh, hlt⟩
      rcases List.mem_cons.1 ((hm g).2 hg) with rfl | hg
      · rcases List.mem_cons.1 ((hm h).2 hh) with rfl | hh'
        · exact absurd hlt (lt_irrefl _)
        · exact absurd hlt (not_lt.2 (h1 h hh').le)
      · exact hg

/-- **C108.** If never-treated units are coded `0` and cohorts are positive, the cohorts considered by `setup_pte` are
exactly the treated cohorts that are observed periods. -/
theorem C108_zero_coded (ps : List ℤ) (gs : List (WithTop ℤ)) (hnn : ∀ g ∈ gs, 0 ≤ g) (h0 : (0 : WithTop ℤ) ∈ gs) (k : ℤ) :
    k ∈ setupRecoded ps gs ↔ ∃ g : ℤ, 0 < g ∧ (g : WithTop ℤ) ∈ gs ∧ g ∈ ps ∧ recodeTime ps g = k := by
  unfold setupRecoded
  simp only [List.mem_map, List.mem_filter, List.mem_filterMap, decide_eq_true_eq]
  constructor
  · rintro ⟨g, ⟨⟨x, hx, hf⟩, hgp⟩, rfl⟩
    obtain ⟨hx1, h, hh, hlt⟩ := (mem_setupGroups gs x).1 hx
    cases x with
    | top => simp [finitePart] at hf
    | coe y =>
      simp [finitePart] at hf
      subst hf
      refine ⟨y, ?_, hx1, hgp, rfl⟩
      have := lt_of_le_of_lt (hnn h hh) hlt
      exact_mod_cast this
  · rintro ⟨g, hg, hgm, hgp, rfl⟩
    exact ⟨g, ⟨⟨(g : WithTop ℤ), (mem_setupGroups gs _).2 ⟨hgm, 0, h0, by exact_mod_cast hg⟩, rfl⟩, hgp⟩, rfl⟩

/-- **C108 (violated).** If no unit is coded `0` — never-treated units coded `inf`, or none — the earliest treated cohort
is never considered, whatever the data. -/
theorem C108_first_cohort_violated (ps : List ℤ) (gs : List (WithTop ℤ)) (g : ℤ)
    (hmin : ∀ h ∈ gs, (g : WithTop ℤ) ≤ h) (hinj : g ∈ ps) : recodeTime ps g ∉ setupRecoded ps gs := by
  unfold setupRecoded
  simp only [List.mem_map, List.mem_filter, List.mem_filterMap, decide_eq_true_eq, not_exists, not_and]
  rintro g' ⟨⟨x, hx, hf⟩, hgp⟩ he
  have hgg : g' = g := by
    unfold recodeTime at he
    have : ps.idxOf g' = ps.idxOf g := by omega
    exact (List.idxOf_inj hgp).1 this
  obtain ⟨_, h, hh, hlt⟩ := (mem_setupGroups gs x).1 hx
  cases x with
  | top => simp [finitePart] at hf
  | coe y =>
    simp [finitePart] at hf
    subst hf; subst hgg
    exact absurd hlt (not_lt.2 (hmin h hh))

example : setupRecoded [2001, 2002, 2003] [0, ((2002 : ℤ) : WithTop ℤ), ((2003 : ℤ) : WithTop ℤ)] = [2, 3] ∧
    setupRecoded [2001, 2002, 2003] [⊤, ((2002 : ℤ) : WithTop ℤ), ((2003 : ℤ) : WithTop ℤ)] = [3] := by decide +kernel

end Verif.Cont
