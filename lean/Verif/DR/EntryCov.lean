import Verif.DR.EntryEff
import Verif.DR.Degenerate

set_option linter.unusedSectionVars false
set_option linter.unusedSimpArgs false

/-!
# Both arms, and the period of the covariates: C221, C222
-/

namespace Verif.DR.Entry

open Verif.Panel Verif.Valid Verif.DR

variable {ι κ K : Type*} [LinearOrder ι] [Fintype κ] [Field K] [LinearOrder K] [IsStrictOrderedRing K]

/-! ## An accepted panel call -/

lemma no_null_of_length {df : List (Row ι ℤ (Obs κ K))} (h : ¬ (df.filterMap full?).length < df.length) :
    ∀ r ∈ df, r.val.v ≠ none := by
  intro r hr hv
  apply h
  clear h
  induction df with
  | nil => simp at hr
  | cons s l ih =>
    rcases List.mem_cons.1 hr with rfl | hr'
    · rw [List.filterMap_cons]
      have : full? r = none := by unfold full?; rw [hv]; rfl
      rw [this]
      simp only [List.length_cons]
      have := List.length_filterMap_le full? l
      omega
    · have := ih hr'
      rw [List.filterMap_cons]
      cases full? s <;> simp only [List.length_cons] <;> omega

/-- What is known when a panel call returns something. -/
theorem accepted (f : Fits κ K) (e : Est) (level : K) {df : List (Row ι ℤ (Obs κ K))} {res : Option K}
    (h : runFrame f e true level df = .ok res) :
    ∃ (m : K) (o : TwoData ι (Full κ K)), twoBuild invKey (df.map (prepRow m)) = some o ∧
      nUnique (df.map Row.t) = 2 ∧ (∀ r ∈ df, r.val.d = 0 ∨ r.val.d = 1) ∧ (∀ r ∈ df, r.val.v ≠ none) ∧
      runPanel f e level o = .ok res := by
  unfold runFrame at h
  by_cases h1 : dataOk df = false
  · rw [if_pos h1] at h; cases h
  rw [if_neg h1] at h
  by_cases h2 : (true : Bool) = true ∧ panelOk df = false
  · rw [if_pos h2] at h; cases h
  rw [if_neg h2] at h
  by_cases h3 : weightsOk df = false
  · rw [if_pos h3] at h; cases h
  rw [if_neg h3] at h
  by_cases h4 : (df.filterMap full?).length < df.length
  · have : dropNulls true df = none := by unfold dropNulls; simp [h4]
    rw [this] at h; cases h
  have h4' : dropNulls true df = some (df.filterMap full?) := by unfold dropNulls; simp [h4]
  rw [h4'] at h
  dsimp only at h
  rw [if_pos rfl] at h
  have hnn := no_null_of_length h4
  rw [filterMap_full hnn, normW_map] at h
  simp only [Bool.not_eq_false] at h1
  unfold dataOk at h1
  simp only [Bool.and_eq_true, decide_eq_true_eq, List.all_eq_true] at h1
  cases hb : twoBuild invKey (df.map (prepRow (meanW (df.map fullRow)))) with
  | none => rw [hb] at h; cases h
  | some o =>
    rw [hb] at h
    exact ⟨_, o, hb, h1.1.1, h1.2, hnn, h⟩

/-- A unit of the estimation sample, seen from the user's frame. -/
theorem accepted_rows {m : K} {df : List (Row ι ℤ (Obs κ K))} {o : TwoData ι (Full κ K)}
    (ho : twoBuild invKey (df.map (prepRow m)) = some o) (h2 : nUnique (df.map Row.t) = 2) :
    ∃ t0 t1, t0 < t1 ∧ (∀ r ∈ df, r.t = t0 ∨ r.t = t1) ∧
      ∀ i : Fin o.post.length, ∃ r ∈ df, r.id ∈ usable df t0 t1 ∧ r.t = t1 ∧ o.post[i] = prepRow m r := by
  have htimes : (df.map (prepRow m)).map Row.t = df.map Row.t := by rw [List.map_map]; rfl
  obtain ⟨t0, t1, hlt, hall, hP, hids, _⟩ := twoBuild_spec invKey _ o (by rw [htimes]; exact h2) ho
  have hobs : ∀ u t, obsCount (df.map (prepRow m)) u t = obsCount df u t :=
    obsCount_map df (prepRow m) (fun r => rfl) (fun r => rfl)
  refine ⟨t0, t1, hlt, ?_, ?_⟩
  · intro r hr
    exact hall (prepRow m r) (List.mem_map.2 ⟨r, hr, rfl⟩)
  · intro i
    have hi : o.post[i] ∈ o.post := List.getElem_mem _
    obtain ⟨hm, ht⟩ := hP.post _ hi
    obtain ⟨r, hr, he⟩ := List.mem_map.1 hm
    refine ⟨r, hr, ?_, ?_, he.symm⟩
    · have := (hids (o.post[i]).id).1 (List.mem_map.2 ⟨_, hi, rfl⟩)
      rw [hobs, hobs, ← he] at this
      exact mem_usable.2 this
    · rw [← he] at ht; exact ht

/-- Some treated and some comparison unit is observed once in each of the two periods, with non-zero weight. -/
def BothObserved (df : List (Row ι ℤ (Obs κ K))) : Prop :=
  ∃ t0 t1, t0 < t1 ∧ (∀ r ∈ df, r.t = t0 ∨ r.t = t1) ∧
    ∀ a : ℤ, (a = 0 ∨ a = 1) → ∃ r ∈ df, r.val.d = a ∧ r.id ∈ usable df t0 t1 ∧ ∃ v, r.val.v = some v ∧ v.w ≠ 0

lemma bothObserved_of {m : K} {df : List (Row ι ℤ (Obs κ K))} {o : TwoData ι (Full κ K)}
    (ho : twoBuild invKey (df.map (prepRow m)) = some o) (h2 : nUnique (df.map Row.t) = 2)
    (hd : ∀ r ∈ df, r.val.d = 0 ∨ r.val.d = 1) (hnn : ∀ r ∈ df, r.val.v ≠ none)
    (h1 : ∃ i : Fin o.post.length, decide ((o.post[i]).val.d = 1) = true ∧ (o.post[i]).val.w ≠ 0)
    (h0 : ∃ i : Fin o.post.length, decide ((o.post[i]).val.d = 1) = false ∧ (o.post[i]).val.w ≠ 0) :
    BothObserved df := by
  obtain ⟨t0, t1, hlt, hall, hrows⟩ := accepted_rows ho h2
  have key : ∀ (i : Fin o.post.length) (a : Bool), decide ((o.post[i]).val.d = 1) = a → (o.post[i]).val.w ≠ 0 →
      ∃ r ∈ df, decide (r.val.d = 1) = a ∧ r.id ∈ usable df t0 t1 ∧ ∃ v, r.val.v = some v ∧ v.w ≠ 0 := by
    intro i a ha hw
    obtain ⟨r, hr, hu, _, he⟩ := hrows i
    rw [he] at ha hw
    refine ⟨r, hr, ?_, hu, ?_⟩
    · rw [← ha]
      simp only [prepRow, fullRow_d]
    · cases hv : r.val.v with
      | none => exact absurd hv (hnn r hr)
      | some v =>
        refine ⟨v, rfl, ?_⟩
        intro h0
        apply hw
        simp only [prepRow, (fullRow_val r v hv).2.1, h0, zero_div]
  refine ⟨t0, t1, hlt, hall, ?_⟩
  rintro a (rfl | rfl)
  · obtain ⟨i, hi, hw⟩ := h0
    obtain ⟨r, hr, hra, hu⟩ := key i false hi hw
    refine ⟨r, hr, ?_, hu⟩
    rcases hd r hr with h | h
    · exact h
    · simp [h] at hra
  · obtain ⟨i, hi, hw⟩ := h1
    obtain ⟨r, hr, hra, hu⟩ := key i true hi hw
    exact ⟨r, hr, by simpa using hra, hu⟩

/-- **C221.** Whatever the panel and the options, an estimate returned by `drdid(..., est_method="trad")` or by
`ipwdid(..., est_method="std_ipw")` was computed from at least one treated and one comparison unit observed in both periods
with non-zero weight. -/
theorem C221_both_arms (f : Fits κ K) (o : Opts K) (df : List (Row ι ℤ (Obs κ K))) (hp : o.panel = true) (a : K) :
    (o.est = "trad" → drdidCall f o df = .ok (some a) → BothObserved df) ∧
    (o.est = "std_ipw" → ipwdidCall f o df = .ok (some a) → BothObserved df) := by
  constructor
  · intro he h
    unfold drdidCall at h
    have hch : ∀ e, drChoose o = .ok e → e = .tradPanel := by
      intro e hc
      unfold drChoose at hc
      by_cases c1 : o.treat = false
      · rw [if_pos c1] at hc; cases hc
      rw [if_neg c1] at hc
      by_cases c2 : o.panel = true ∧ o.unit = false
      · rw [if_pos c2] at hc; cases hc
      rw [if_neg c2] at hc
      by_cases c3 : o.panel = true ∧ o.est ∉ ["imp", "trad"]
      · rw [if_pos c3] at hc; cases hc
      rw [if_neg c3] at hc
      by_cases c4 : o.panel = false ∧ o.est ∉ ["imp", "trad", "imp_local", "trad_local"]
      · rw [if_pos c4] at hc; cases hc
      rw [if_neg c4] at hc
      by_cases c5 : ¬ (0 < o.level ∧ o.level < 1)
      · rw [if_pos c5] at hc; cases hc
      rw [if_neg c5] at hc
      by_cases c6 : o.bootType ∉ ["weighted", "multiplier"]
      · rw [if_pos c6] at hc; cases hc
      rw [if_neg c6] at hc
      by_cases c7 : o.nBoot < 1
      · rw [if_pos c7] at hc; cases hc
      rw [if_neg c7, if_pos hp, if_neg (by rw [he]; decide)] at hc
      exact (Except.ok.inj hc).symm
    cases hc : drChoose o with
    | error e => rw [hc] at h; cases h
    | ok e =>
      rw [hc, hch e hc, hp] at h
      obtain ⟨m, t, ht, h2, hd, hnn, hrun⟩ := accepted f _ _ h
      unfold runPanel panelEst at hrun
      dsimp only at hrun
      cases hr : drdidPanel (f.ols t.post.length) (f.logit t.post.length) lo hi o.level (fun i => (t.post[i]).val.y)
          (fun i => ((t.pre.map fun r => r.val.y)[(i : ℕ)]?).getD 0) (fun i => decide ((t.post[i]).val.d = 1))
          (fun i => (t.post[i]).val.x) (fun i => (t.post[i]).val.w) with
      | error e => rw [hr] at hrun; cases hrun
      | ok b =>
        obtain ⟨q1, q0⟩ := C74_dr_needs_both_groups _ _ _ _ _ _ _ _ _ _ _ hr
        exact bothObserved_of ht h2 hd hnn q1 q0
  · intro he h
    unfold ipwdidCall at h
    have hch : ∀ e, ipwChoose o = .ok e → e = .stdIpwPanel := by
      intro e hc
      unfold ipwChoose at hc
      by_cases c1 : o.treat = false
      · rw [if_pos c1] at hc; cases hc
      rw [if_neg c1] at hc
      by_cases c2 : o.panel = true ∧ o.unit = false
      · rw [if_pos c2] at hc; cases hc
      rw [if_neg c2] at hc
      by_cases c3 : o.est ∉ ["ipw", "std_ipw"]
      · rw [if_pos c3] at hc; cases hc
      rw [if_neg c3] at hc
      by_cases c6 : o.bootType ∉ ["weighted", "multiplier"]
      · rw [if_pos c6] at hc; cases hc
      rw [if_neg c6] at hc
      by_cases c7 : o.nBoot < 1
      · rw [if_pos c7] at hc; cases hc
      rw [if_neg c7] at hc
      by_cases c5 : ¬ (0 < o.level ∧ o.level < 1)
      · rw [if_pos c5] at hc; cases hc
      rw [if_neg c5, if_pos hp, if_neg (by rw [he]; decide)] at hc
      exact (Except.ok.inj hc).symm
    cases hc : ipwChoose o with
    | error e => rw [hc] at h; cases h
    | ok e =>
      rw [hc, hch e hc, hp] at h
      obtain ⟨m, t, ht, h2, hd, hnn, hrun⟩ := accepted f _ _ h
      unfold runPanel panelEst at hrun
      dsimp only at hrun
      cases hr : stdIpwDidPanel (f.logit t.post.length) lo hi o.level (fun i => (t.post[i]).val.y)
          (fun i => ((t.pre.map fun r => r.val.y)[(i : ℕ)]?).getD 0) (fun i => decide ((t.post[i]).val.d = 1))
          (fun i => (t.post[i]).val.x) (fun i => (t.post[i]).val.w) with
      | error e => rw [hr] at hrun; cases hrun
      | ok b =>
        rw [hr] at hrun
        have hb : b = some a := Except.ok.inj hrun
        rw [hb] at hr
        obtain ⟨q1, q0⟩ := C74_ipw_needs_both_groups _ _ _ _ _ _ _ _ _ _ hr
        exact bothObserved_of ht h2 hd hnn q1 q0

/-- The treated unit is seen before treatment only. -/
def noTreated : List (Row ℕ ℤ (Obs Unit ℚ)) :=
  [exRow 1 5 1 2 1, exRow 2 5 0 4 1, exRow 2 7 0 5 1, exRow 3 5 0 1 1, exRow 3 7 0 4 1]

/-- **C221 violated (`ordid`).** A panel in which the only treated unit has no post-treatment row is accepted by `ordid`,
which reports an ATT of 0; `drdid(..., "trad")` and `ipwdid` raise on the same data. -/
theorem C221_ordid_violated :
    ordidCall meanFits exOpts noTreated = .ok (some 0) ∧ (∀ r ∈ noTreated, r.val.d = 1 → r.t = 5) ∧
    (∃ e, drdidCall meanFits { exOpts with est := "trad" } noTreated = .error e) ∧
    (∃ e, ipwdidCall meanFits { exOpts with est := "std_ipw" } noTreated = .error e) ∧
    (∃ e, ipwdidCall meanFits { exOpts with est := "ipw" } noTreated = .error e) := by
  refine ⟨by decide +kernel, by simp [noTreated, exRow], ⟨.estimator .noTreated, by decide +kernel⟩,
    ⟨.estimator .noTreated, by decide +kernel⟩, ⟨.estimator .noTreated, by decide +kernel⟩⟩

example : BothObserved exFrame := by
  have h := (C217_trad_and_ipw meanFits meanFits_ok { exOpts with est := "trad" } exFrame_ok exFrame_x
    (by simp [CommonOptions, exOpts]) rfl (by simp [exOpts]; norm_num)
    (by rw [exUsable]; decide +kernel)).1 rfl
  exact (C221_both_arms meanFits _ exFrame rfl _).1 rfl h

/-! ## C222: which covariates are used -/

/-- The frame with the covariates of the rows of period `t0` replaced. -/
def setX (t0 : ℤ) (g : ι → κ → K) (r : Row ι ℤ (Obs κ K)) : Row ι ℤ (Obs κ K) :=
  ⟨r.id, r.t, ⟨r.val.d, r.val.v.map fun v => if r.t = t0 then { v with x := g r.id } else v⟩⟩

/-- The same on complete rows. -/
def setXF (t0 : ℤ) (g : ι → κ → K) (r : Row ι ℤ (Full κ K)) : Row ι ℤ (Full κ K) :=
  if r.t = t0 then ⟨r.id, r.t, { r.val with x := g r.id }⟩ else r

section Cov
variable {t0 t1 : ℤ} {g : ι → κ → K}

lemma setXF_id (r : Row ι ℤ (Full κ K)) : (setXF t0 g r).id = r.id := by unfold setXF; split_ifs <;> rfl
lemma setXF_t (r : Row ι ℤ (Full κ K)) : (setXF t0 g r).t = r.t := by unfold setXF; split_ifs <;> rfl
lemma setXF_y (r : Row ι ℤ (Full κ K)) : (setXF t0 g r).val.y = r.val.y := by unfold setXF; split_ifs <;> rfl
lemma setXF_w (r : Row ι ℤ (Full κ K)) : (setXF t0 g r).val.w = r.val.w := by unfold setXF; split_ifs <;> rfl
lemma setXF_key (r : Row ι ℤ (Full κ K)) : invKey (setXF t0 g r).val = invKey r.val := by
  unfold setXF; split_ifs <;> rfl

lemma full_setX (r : Row ι ℤ (Obs κ K)) : full? (setX t0 g r) = (full? r).map (setXF t0 g) := by
  unfold full? setX setXF
  cases hv : r.val.v with
  | none => simp [hv]
  | some v =>
    by_cases h : r.t = t0 <;> simp [h, hv]

lemma filterMap_setX (df : List (Row ι ℤ (Obs κ K))) :
    (df.map (setX t0 g)).filterMap full? = (df.filterMap full?).map (setXF t0 g) := by
  rw [List.filterMap_map, List.map_filterMap]
  congr 1
  funext r
  exact full_setX r

lemma normW_setX (c : List (Row ι ℤ (Full κ K))) : normW (c.map (setXF t0 g)) = (normW c).map (setXF t0 g) := by
  have hm : meanW (c.map (setXF t0 g)) = meanW c := by
    unfold meanW
    rw [List.map_map, List.length_map]
    congr 2
    apply List.map_congr_left
    intro r _
    exact setXF_w r
  unfold normW
  rw [hm, List.map_map, List.map_map]
  apply List.map_congr_left
  intro r _
  simp only [Function.comp]
  unfold setXF
  by_cases h : r.t = t0 <;> simp [h]

lemma filter_map_same {A : Type*} (l : List A) (h : A → A) (p : A → Bool) (hp : ∀ a, p (h a) = p a) :
    (l.map h).filter p = (l.filter p).map h := by
  rw [List.filter_map]
  congr 1
  apply List.filter_congr
  intro a _
  exact hp a

lemma makeBalanced_setX (d : List (Row ι ℤ (Full κ K))) :
    makeBalanced (d.map (setXF t0 g)) = (makeBalanced d).map (setXF t0 g) := by
  rw [makeBalanced_eq_filter, makeBalanced_eq_filter]
  have ht : (d.map (setXF t0 g)).map Row.t = d.map Row.t := by
    rw [List.map_map]; exact List.map_congr_left fun r _ => setXF_t r
  have hc : ∀ u, ((d.map (setXF t0 g)).filter fun s => decide (s.id = u)).length = (d.filter fun s => decide (s.id = u)).length := by
    intro u
    rw [filter_map_same _ _ _ (fun a => by rw [setXF_id]), List.length_map]
  rw [ht]
  simp only [hc]
  rw [filter_map_same]
  intro a
  rw [setXF_id]

lemma sortedTimes_setX (d : List (Row ι ℤ (Full κ K))) : sortedTimes (d.map (setXF t0 g)) = sortedTimes d := by
  unfold sortedTimes
  have ht : (d.map (setXF t0 g)).map Row.t = d.map Row.t := by
    rw [List.map_map]; exact List.map_congr_left fun r _ => setXF_t r
  rw [ht]

lemma complete_setX (d : List (Row ι ℤ (Full κ K))) (a b t : ℤ) :
    complete (d.map (setXF t0 g)) a b t = (complete d a b t).map (setXF t0 g) := by
  have hobs : ∀ u t, obsCount (d.map (setXF t0 g)) u t = obsCount d u t :=
    obsCount_map d (setXF t0 g) setXF_id setXF_t
  unfold complete
  simp only [hobs]
  rw [List.map_insertionSort (r := leId) (s := leId) _ _ (by intro a _ b _; unfold leId; rw [setXF_id, setXF_id])]
  congr 1
  rw [filter_map_same]
  intro a
  rw [setXF_id, setXF_t]

/-- The build with other pre-period covariates. -/
theorem twoBuild_setX (d : List (Row ι ℤ (Full κ K))) (h2 : nUnique (d.map Row.t) = 2) :
    twoBuild invKey (d.map (setXF t0 g)) = (twoBuild invKey d).map fun o =>
      ⟨o.post.map (setXF t0 g), o.pre.map (setXF t0 g), o.nUnits⟩ := by
  have ht : (d.map (setXF t0 g)).map Row.t = d.map Row.t := by
    rw [List.map_map]; exact List.map_congr_left fun r _ => setXF_t r
  have hst : sortedTimes (makeBalanced (d.map (setXF t0 g))) = sortedTimes (makeBalanced d) := by
    rw [makeBalanced_setX, sortedTimes_setX]
  have hkey : ∀ l : List (Row ι ℤ (Full κ K)), (l.map (setXF t0 g)).map (fun r => invKey r.val) =
      l.map fun r => invKey r.val := by
    intro l
    rw [List.map_map]; exact List.map_congr_left fun r _ => setXF_key r
  by_cases hb : ∃ a b, sortedTimes (makeBalanced d) = [a, b]
  · obtain ⟨a, b, hb⟩ := hb
    obtain ⟨hlt, hper⟩ := Verif.Valid.sortedTimes_two hb
    have hall : ∀ r ∈ d, r.t = a ∨ r.t = b := by
      intro r hr
      have hsub : [a, b] ⊆ (d.map Row.t).dedup := by
        intro t ht
        rw [List.mem_dedup]
        have : t ∈ (makeBalanced d).map Row.t := (hper t).2 (by simpa using ht)
        rw [List.mem_map] at this ⊢
        obtain ⟨s, hs, rfl⟩ := this
        exact ⟨s, (mem_makeBalanced.1 hs).1, rfl⟩
      have hnd : ([a, b] : List ℤ).Nodup := by simp [hlt.ne]
      have hlen : ((d.map Row.t).dedup).length ≤ ([a, b] : List ℤ).length := by
        unfold nUnique at h2; rw [h2]; simp
      have hperm := (List.subperm_of_subset hnd hsub).perm_of_length_le hlen
      have : r.t ∈ (d.map Row.t).dedup := List.mem_dedup.2 (List.mem_map.2 ⟨r, hr, rfl⟩)
      rw [← hperm.mem_iff] at this
      simpa using this
    have hall' : ∀ r ∈ d.map (setXF t0 g), r.t = a ∨ r.t = b := by
      intro r hr
      obtain ⟨s, hs, rfl⟩ := List.mem_map.1 hr
      rw [setXF_t]; exact hall s hs
    rw [twoBuild_eq invKey d a b hlt hall h2 hb,
      twoBuild_eq invKey _ a b hlt hall' (by rw [ht]; exact h2) (by rw [hst]; exact hb)]
    simp only [complete_setX, hkey, List.length_map]
    split_ifs <;> simp
  · have e : ∀ (l : List (Row ι ℤ (Full κ K))), (¬ ∃ a b, sortedTimes (makeBalanced l) = [a, b]) →
        twoBuild invKey l = none := by
      intro l hl
      unfold twoBuild
      dsimp only
      split
      · rename_i a b hab
        exact absurd ⟨a, b, hab⟩ hl
      · rfl
    rw [e d hb, e _ (by rw [hst]; exact hb)]
    rfl

lemma runPanel_post (f : Fits κ K) (e : Est) (level : K) (L P P' : List (Row ι ℤ (Full κ K))) (n n' : ℕ)
    (h : (P.map fun r => r.val.y) = P'.map fun r => r.val.y) :
    runPanel f e level ⟨L, P, n⟩ = runPanel f e level ⟨L, P', n'⟩ := by
  unfold runPanel
  dsimp only
  rw [h]

theorem runFrame_setX (f : Fits κ K) (e : Est) (level : K) {df : List (Row ι ℤ (Obs κ K))} (hlt : t0 < t1)
    (hall : ∀ r ∈ df, r.t = t0 ∨ r.t = t1) :
    runFrame f e true level (df.map (setX t0 g)) = runFrame f e true level df := by
  have hT : (df.map (setX t0 g)).map Row.t = df.map Row.t := by rw [List.map_map]; rfl
  have hD : (df.map (setX t0 g)).map (fun r => r.val.d) = df.map fun r => r.val.d := by rw [List.map_map]; rfl
  have h1 : dataOk (df.map (setX t0 g)) = dataOk df := by
    unfold dataOk
    rw [hT, hD, List.all_map]
    rfl
  have hfil : ∀ u, (df.map (setX t0 g)).filter (fun s => decide (s.id = u)) =
      (df.filter fun s => decide (s.id = u)).map (setX t0 g) := by
    intro u
    exact filter_map_same _ _ _ fun a => rfl
  have h2 : panelOk (df.map (setX t0 g)) = panelOk df := by
    unfold panelOk
    simp only [hfil, List.length_map, List.map_map, List.any_map, List.all_map]
    rfl
  have h3 : weightsOk (df.map (setX t0 g)) = weightsOk df := by
    unfold weightsOk
    rw [List.all_map]
    congr 1
    funext r
    simp only [Function.comp, setX]
    cases hv : r.val.v with
    | none => rfl
    | some v =>
      by_cases h : r.t = t0 <;> simp [h]
  unfold runFrame
  rw [h1, h2, h3]
  by_cases hd : dataOk df = false
  · rw [if_pos hd, if_pos hd]
  rw [if_neg hd, if_neg hd]
  congr 1
  congr 1
  by_cases h4 : (df.filterMap full?).length < df.length
  · have e1 : dropNulls true df = none := by unfold dropNulls; simp [h4]
    have e2 : dropNulls true (df.map (setX t0 g)) = none := by
      unfold dropNulls; simp only [filterMap_setX, List.length_map]; simp [h4]
    rw [e1, e2]
  · have e1 : dropNulls true df = some (df.filterMap full?) := by unfold dropNulls; simp [h4]
    have e2 : dropNulls true (df.map (setX t0 g)) = some ((df.filterMap full?).map (setXF t0 g)) := by
      unfold dropNulls; simp only [filterMap_setX, List.length_map]; simp [h4]
    rw [e1, e2]
    dsimp only
    rw [if_pos rfl, if_pos rfl, normW_setX]
    have ht : nUnique ((normW (df.filterMap full?)).map Row.t) = 2 := by
      rw [filterMap_full (no_null_of_length h4), normW_map, List.map_map]
      simp only [Bool.not_eq_false] at hd
      unfold dataOk at hd
      simp only [Bool.and_eq_true, decide_eq_true_eq] at hd
      exact hd.1.1
    rw [twoBuild_setX _ ht]
    cases hb : twoBuild invKey (normW (df.filterMap full?)) with
    | none => rfl
    | some o =>
      simp only [Option.map_some]
      obtain ⟨a, b, hab, hall', hP, _, _⟩ := twoBuild_spec invKey _ o ht hb
      have hbt : ∀ r ∈ o.post, r.t ≠ t0 := by
        intro r hr
        have hrb := (hP.post r hr).2
        -- both periods occur, so the later one is not `t0`
        have hmem : ∀ t, (∃ s ∈ normW (df.filterMap full?), s.t = t) → t = t0 ∨ t = t1 := by
          rintro t ⟨s, hs, rfl⟩
          rw [filterMap_full (no_null_of_length h4), normW_map] at hs
          obtain ⟨q, hq, rfl⟩ := List.mem_map.1 hs
          exact hall q hq
        intro h0
        have hpre : ∃ q ∈ o.pre, q.id = r.id := by
          have : r.id ∈ o.pre.map Row.id := by rw [← hP.same]; exact List.mem_map.2 ⟨r, hr, rfl⟩
          obtain ⟨q, hq, he⟩ := List.mem_map.1 this
          exact ⟨q, hq, he⟩
        obtain ⟨q, hq, _⟩ := hpre
        have hqa := (hP.pre q hq).2
        have := hmem a ⟨q, (hP.pre q hq).1, hqa⟩
        omega
      have hpost : o.post.map (setXF t0 g) = o.post := by
        conv_rhs => rw [← List.map_id o.post]
        apply List.map_congr_left
        intro r hr
        unfold setXF
        rw [if_neg (hbt r hr)]
        rfl
      rw [hpost]
      apply runPanel_post
      rw [List.map_map]
      exact List.map_congr_left fun r _ => setXF_y r

/-- **C222.** On panel data the three functions adjust for the covariates of the post-treatment period: whatever the
pre-period rows contain in the covariate columns (no null), the answer is the same. -/
theorem C222_pre_covariates_ignored (f : Fits κ K) (o : Opts K) (hp : o.panel = true) {df : List (Row ι ℤ (Obs κ K))}
    (hlt : t0 < t1) (hall : ∀ r ∈ df, r.t = t0 ∨ r.t = t1) (g : ι → κ → K) :
    drdidCall f o (df.map (setX t0 g)) = drdidCall f o df ∧ ipwdidCall f o (df.map (setX t0 g)) = ipwdidCall f o df ∧
      ordidCall f o (df.map (setX t0 g)) = ordidCall f o df := by
  unfold drdidCall ipwdidCall ordidCall
  rw [hp]
  refine ⟨?_, ?_, ?_⟩
  · cases drChoose o with
    | error e => rfl
    | ok e => exact runFrame_setX f e o.level hlt hall
  · cases ipwChoose o with
    | error e => rfl
    | ok e => exact runFrame_setX f e o.level hlt hall
  · cases orChoose o with
    | error e => rfl
    | ok e => exact runFrame_setX f e o.level hlt hall

end Cov

/-- A panel with binary covariate `z`: in the pre-period it is balanced (`z` is 0, 1 in both arms), the treatment sets it
to 1 for the treated unit 1. -/
def covPanel (zpost : ℚ) : List (Row ℕ ℤ (Obs Bool ℚ)) :=
  [zRow 1 0 1 0 0, zRow 1 1 1 3 zpost, zRow 2 0 1 0 1, zRow 2 1 1 3 1, zRow 3 0 0 0 0, zRow 3 1 0 0 0,
   zRow 4 0 0 0 1, zRow 4 1 0 2 1]

/-- **C222 violated.** A property users expect of a DiD estimator (and that `att_gt`, which takes the base-period row, has):
adjusting for pre-treatment covariates. Here all pre-treatment covariates and all outcomes agree in the two panels, only a
covariate affected by the treatment differs, and the estimate changes from 2 to 1. -/
theorem C222_pretreatment_violated :
    ((covPanel 0).filter (fun r => decide (r.t = 0))).map (fun r => r.val.v.map fun v => (v.y, v.w, v.x true)) =
      ((covPanel 1).filter (fun r => decide (r.t = 0))).map (fun r => r.val.v.map fun v => (v.y, v.w, v.x true)) ∧
    (covPanel 0).map (fun r => (r.id, r.t, r.val.d, r.val.v.map fun v => (v.y, v.w))) =
      (covPanel 1).map (fun r => (r.id, r.t, r.val.d, r.val.v.map fun v => (v.y, v.w))) ∧
    ordidCall satFits exOpts (covPanel 0) = .ok (some 2) ∧
    ordidCall satFits exOpts (covPanel 1) = .ok (some 1) := by
  refine ⟨by decide +kernel, by decide +kernel, by decide +kernel, by decide +kernel⟩

example : (∀ r ∈ covPanel 0, r.t = 0 ∨ r.t = 1) := by simp [covPanel, zRow]

end Verif.DR.Entry
