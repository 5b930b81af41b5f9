import Verif.DR.EntryModel
import Verif.DR.RC
import Verif.Valid.TwoCanon
import Mathlib.Tactic.Linarith

set_option linter.unusedSectionVars false
set_option linter.unusedSimpArgs false
set_option linter.unusedVariables false

/-!
# `drdid`, `ipwdid`, `ordid` end to end on panels: C216, C217, C218
-/

namespace Verif.DR.Entry

open Verif.Panel Verif.Valid Verif.DR

variable {ι κ K : Type*} [LinearOrder ι] [Fintype κ] [Field K] [LinearOrder K] [IsStrictOrderedRing K]

/-! ## C216: options -/

/-- Options every function requires: a treatment column, a unit column for panels, a known kind of bootstrap and a
positive number of replications. -/
def CommonOptions (o : Opts K) : Prop :=
  o.treat = true ∧ (o.panel = true → o.unit = true) ∧ (o.bootType = "weighted" ∨ o.bootType = "multiplier") ∧ 1 ≤ o.nBoot

/-- The documented methods of `drdid`. -/
def DrMethod (o : Opts K) : Prop :=
  o.est = "imp" ∨ o.est = "trad" ∨ (o.panel = false ∧ (o.est = "imp_local" ∨ o.est = "trad_local"))

/-- **C216.** `drdid` gets past its option checks exactly for the documented options. -/
theorem C216_drdid_options (o : Opts K) :
    (∃ e, drChoose o = .ok e) ↔ CommonOptions o ∧ DrMethod o ∧ 0 < o.level ∧ o.level < 1 := by
  unfold drChoose CommonOptions DrMethod
  cases o.treat <;> cases o.panel <;> cases o.unit <;> simp
  all_goals split_ifs <;> simp_all <;> tauto

/-- **C216.** `ipwdid` gets past its option checks exactly for the documented options. -/
theorem C216_ipwdid_options (o : Opts K) :
    (∃ e, ipwChoose o = .ok e) ↔
      CommonOptions o ∧ (o.est = "ipw" ∨ o.est = "std_ipw") ∧ 0 < o.level ∧ o.level < 1 := by
  unfold ipwChoose CommonOptions
  cases o.treat <;> cases o.panel <;> cases o.unit <;> simp
  all_goals split_ifs <;> simp_all <;> tauto

/-- **C216.** `ordid` gets past its option checks exactly for the documented options. -/
theorem C216_ordid_options (o : Opts K) : (∃ e, orChoose o = .ok e) ↔ CommonOptions o := by
  unfold orChoose CommonOptions
  cases o.treat <;> cases o.panel <;> cases o.unit <;> simp
  all_goals split_ifs <;> simp_all <;> tauto

lemma ite_cases (p : Prop) [Decidable p] {a b : Except Err Est} (ha : a = .error .option ∨ ∃ e, a = .ok e)
    (hb : b = .error .option ∨ ∃ e, b = .ok e) :
    (if p then a else b) = .error .option ∨ ∃ e, (if p then a else b) = .ok e := by
  by_cases h : p
  · rw [if_pos h]; exact ha
  · rw [if_neg h]; exact hb

/-- **C216.** Options outside the documentation make all three functions fail before the data are looked at. -/
theorem C216_rejected (f : Fits κ K) (o : Opts K) (df : List (Row ι ℤ (Obs κ K))) (h : ¬ CommonOptions o) :
    drdidCall f o df = .error .option ∧ ipwdidCall f o df = .error .option ∧ ordidCall f o df = .error .option := by
  have e1 : ∀ (c : Except Err Est), (c = .error .option ∨ ∃ e, c = .ok e) → (¬ ∃ e, c = .ok e) → c = .error .option := by
    rintro c (h | h) hn
    · exact h
    · exact absurd h hn
  have h1 : drChoose o = .error .option := by
    apply e1
    · unfold drChoose
      repeat' refine ite_cases _ ?_ ?_
      all_goals first | exact Or.inl rfl | exact Or.inr ⟨_, rfl⟩
    · rw [C216_drdid_options]; tauto
  have h2 : ipwChoose o = .error .option := by
    apply e1
    · unfold ipwChoose
      repeat' refine ite_cases _ ?_ ?_
      all_goals first | exact Or.inl rfl | exact Or.inr ⟨_, rfl⟩
    · rw [C216_ipwdid_options]; tauto
  have h3 : orChoose o = .error .option := by
    apply e1
    · unfold orChoose
      repeat' refine ite_cases _ ?_ ?_
      all_goals first | exact Or.inl rfl | exact Or.inr ⟨_, rfl⟩
    · rw [C216_ordid_options]; tauto
  unfold drdidCall ipwdidCall ordidCall
  rw [h1, h2, h3]
  exact ⟨rfl, rfl, rfl⟩

/-- Default options of a panel call. -/
def exOpts : Opts ℚ := ⟨true, true, true, "imp", 199 / 200, "weighted", 999⟩

example : CommonOptions exOpts ∧ DrMethod exOpts ∧ 0 < exOpts.level ∧ exOpts.level < 1 := by
  simp [exOpts, CommonOptions, DrMethod]; norm_num

/-! ## The arrays an accepted panel call hands to its estimator -/

/-- Units observed once in each period. -/
def usable (df : List (Row ι ℤ (Obs κ K))) (t0 t1 : ℤ) : Finset ι :=
  (df.map Row.id).toFinset.filter fun u => obsCount df u t0 = 1 ∧ obsCount df u t1 = 1

/-- A complete two-period panel: treatment and weight belong to the unit, and the outcomes of the units observed once in
each period are `Y0` and `Y1`. -/
structure PanelFrame (df : List (Row ι ℤ (Obs κ K))) (t0 t1 : ℤ) (D : ι → Bool) (W Y0 Y1 : ι → K) : Prop where
  lt : t0 < t1
  times : ∀ r ∈ df, r.t = t0 ∨ r.t = t1
  treat : ∀ r ∈ df, r.val.d = if D r.id then 1 else 0
  vals : ∀ r ∈ df, ∃ v, r.val.v = some v ∧ v.w = W r.id
  nonneg : ∀ r ∈ df, 0 ≤ W r.id
  pre : ∀ r ∈ df, r.t = t0 → r.id ∈ usable df t0 t1 → ∀ v, r.val.v = some v → v.y = Y0 r.id
  post : ∀ r ∈ df, r.t = t1 → r.id ∈ usable df t0 t1 → ∀ v, r.val.v = some v → v.y = Y1 r.id
  treated : 0 < ∑ u ∈ usable df t0 t1 with D u = true, W u
  control : 0 < ∑ u ∈ usable df t0 t1 with D u = false, W u

section Frame
variable {df : List (Row ι ℤ (Obs κ K))} {t0 t1 : ℤ} {D : ι → Bool} {W Y0 Y1 : ι → K}

lemma mem_usable {u : ι} : u ∈ usable df t0 t1 ↔ obsCount df u t0 = 1 ∧ obsCount df u t1 = 1 := by
  unfold usable
  rw [Finset.mem_filter, List.mem_toFinset, List.mem_map]
  constructor
  · exact fun h => h.2
  · intro h
    refine ⟨?_, h⟩
    obtain ⟨r, hr, hu, _⟩ := mem_obsCount.1 (by rw [h.1]; omega : 0 < obsCount df u t0)
    exact ⟨r, hr, hu⟩

lemma ex_of_sum_pos {s : Finset ι} {g : ι → K} (h : 0 < ∑ u ∈ s, g u) : ∃ u, u ∈ s := by
  by_contra hn
  push Not at hn
  rw [Finset.eq_empty_of_forall_notMem hn] at h
  simp at h

lemma nUnique_two {A : Type*} [DecidableEq A] {l : List A} {a b : A} (hab : a ≠ b) (h : ∀ x ∈ l, x = a ∨ x = b)
    (ha : a ∈ l) (hb : b ∈ l) : nUnique l = 2 := by
  have hp : l.dedup.Perm [a, b] := by
    rw [List.perm_ext_iff_of_nodup (List.nodup_dedup _) (by simp [hab])]
    intro x
    rw [List.mem_dedup]
    simp only [List.mem_cons, List.not_mem_nil, or_false]
    constructor
    · exact h x
    · rintro (rfl | rfl) <;> assumption
  unfold nUnique
  rw [hp.length_eq]
  rfl

lemma nUnique_le_one {A : Type*} [DecidableEq A] {l : List A} {a : A} (h : ∀ x ∈ l, x = a) : nUnique l ≤ 1 := by
  unfold nUnique
  have : l.dedup ⊆ [a] := by
    intro x hx
    rw [List.mem_dedup] at hx
    simp [h x hx]
  exact (List.subperm_of_subset (List.nodup_dedup _) this).length_le

lemma row_of_usable {u : ι} (hu : u ∈ usable df t0 t1) (t : ℤ) (ht : t = t0 ∨ t = t1) :
    ∃ r ∈ df, r.id = u ∧ r.t = t := by
  rw [mem_usable] at hu
  apply mem_obsCount.1
  rcases ht with rfl | rfl <;> omega

lemma PanelFrame.exU (h : PanelFrame df t0 t1 D W Y0 Y1) (b : Bool) : ∃ u ∈ usable df t0 t1, D u = b := by
  cases b
  · obtain ⟨u, hu⟩ := ex_of_sum_pos h.control
    rw [Finset.mem_filter] at hu
    exact ⟨u, hu⟩
  · obtain ⟨u, hu⟩ := ex_of_sum_pos h.treated
    rw [Finset.mem_filter] at hu
    exact ⟨u, hu⟩

lemma PanelFrame.dataOk (h : PanelFrame df t0 t1 D W Y0 Y1) : dataOk df = true := by
  obtain ⟨u, hu, hDu⟩ := h.exU true
  obtain ⟨v, hv, hDv⟩ := h.exU false
  obtain ⟨r0, hr0, hr0u, hr0t⟩ := row_of_usable hu t0 (Or.inl rfl)
  obtain ⟨r1, hr1, hr1u, hr1t⟩ := row_of_usable hu t1 (Or.inr rfl)
  obtain ⟨s0, hs0, hs0u, hs0t⟩ := row_of_usable hv t0 (Or.inl rfl)
  unfold Entry.dataOk
  simp only [Bool.and_eq_true, decide_eq_true_eq, List.all_eq_true]
  refine ⟨⟨?_, ?_⟩, ?_⟩
  · apply nUnique_two h.lt.ne
    · intro t ht
      obtain ⟨r, hr, rfl⟩ := List.mem_map.1 ht
      exact h.times r hr
    · exact List.mem_map.2 ⟨r0, hr0, hr0t⟩
    · exact List.mem_map.2 ⟨r1, hr1, hr1t⟩
  · apply nUnique_two (a := (0 : ℤ)) (b := 1) (by decide)
    · intro d hd
      obtain ⟨r, hr, rfl⟩ := List.mem_map.1 hd
      rw [h.treat r hr]
      cases D r.id <;> simp
    · exact List.mem_map.2 ⟨s0, hs0, by rw [h.treat s0 hs0, hs0u, hDv]; rfl⟩
    · exact List.mem_map.2 ⟨r0, hr0, by rw [h.treat r0 hr0, hr0u, hDu]; rfl⟩
  · intro r hr
    rw [h.treat r hr]
    cases D r.id <;> simp

lemma PanelFrame.panelOk (h : PanelFrame df t0 t1 D W Y0 Y1) : panelOk df = true := by
  obtain ⟨u, hu, hDu⟩ := h.exU true
  obtain ⟨r0, hr0, hr0u, hr0t⟩ := row_of_usable hu t0 (Or.inl rfl)
  unfold Entry.panelOk
  simp only [Bool.and_eq_true, decide_eq_true_eq, List.all_eq_true, List.any_eq_true]
  refine ⟨⟨r0, hr0, ?_⟩, ?_⟩
  · rw [unit_split h.lt.ne h.times, hr0u]
    rw [mem_usable] at hu
    omega
  · intro r hr
    apply nUnique_le_one (a := if D r.id then 1 else 0)
    intro d hd
    obtain ⟨s, hs, rfl⟩ := List.mem_map.1 hd
    rw [List.mem_filter, decide_eq_true_eq] at hs
    rw [h.treat s hs.1, hs.2]

lemma PanelFrame.weightsOk (h : PanelFrame df t0 t1 D W Y0 Y1) : weightsOk df = true := by
  unfold Entry.weightsOk
  rw [List.all_eq_true]
  intro r hr
  obtain ⟨v, hv, hw⟩ := h.vals r hr
  rw [hv]
  simp only [decide_eq_true_eq, hw]
  exact h.nonneg r hr

end Frame

/-- The complete row of an input row (outcome 0 stands in for a null and is never used). -/
def fullRow (r : Row ι ℤ (Obs κ K)) : Row ι ℤ (Full κ K) :=
  match r.val.v with
  | some v => ⟨r.id, r.t, ⟨r.val.d, v.y, v.w, v.x⟩⟩
  | none => ⟨r.id, r.t, ⟨r.val.d, 0, 0, fun _ => 0⟩⟩

lemma filterMap_full {df : List (Row ι ℤ (Obs κ K))} (h : ∀ r ∈ df, r.val.v ≠ none) :
    df.filterMap full? = df.map fullRow := by
  induction df with
  | nil => rfl
  | cons r df ih =>
    have hr := h r (by simp)
    rw [List.filterMap_cons, List.map_cons, ih (fun s hs => h s (by simp [hs]))]
    unfold full? fullRow
    cases hv : r.val.v with
    | none => exact absurd hv hr
    | some v => simp

lemma fullRow_id (r : Row ι ℤ (Obs κ K)) : (fullRow r).id = r.id := by unfold fullRow; split <;> rfl
lemma fullRow_t (r : Row ι ℤ (Obs κ K)) : (fullRow r).t = r.t := by unfold fullRow; split <;> rfl
lemma fullRow_d (r : Row ι ℤ (Obs κ K)) : (fullRow r).val.d = r.val.d := by unfold fullRow; split <;> rfl
lemma fullRow_val (r : Row ι ℤ (Obs κ K)) (v : Vals κ K) (h : r.val.v = some v) :
    (fullRow r).val.y = v.y ∧ (fullRow r).val.w = v.w ∧ (fullRow r).val.x = v.x := by
  unfold fullRow; rw [h]; exact ⟨rfl, rfl, rfl⟩

/-- The frame after null handling and weight normalisation, row by row. -/
def prepRow (m : K) (r : Row ι ℤ (Obs κ K)) : Row ι ℤ (Full κ K) :=
  ⟨r.id, r.t, { (fullRow r).val with w := (fullRow r).val.w / m }⟩

lemma normW_map (df : List (Row ι ℤ (Obs κ K))) :
    normW (df.map fullRow) = df.map (prepRow (meanW (df.map fullRow))) := by
  unfold normW
  rw [List.map_map]
  apply List.map_congr_left
  intro r _
  simp only [Function.comp, prepRow, fullRow_id, fullRow_t]

lemma obsCount_map {A B : Type*} (df : List (Row ι ℤ A)) (g : Row ι ℤ A → Row ι ℤ B) (hid : ∀ r, (g r).id = r.id)
    (ht : ∀ r, (g r).t = r.t) (u : ι) (t : ℤ) : obsCount (df.map g) u t = obsCount df u t := by
  unfold obsCount
  rw [List.filter_map, List.length_map]
  congr 2
  funext r
  simp [Function.comp, hid, ht]

lemma map_getElem_eq {A B : Type*} (l : List A) (g : A → B) (i : Fin l.length) : ((l.map g)[(i : ℕ)]?) = some (g l[i]) := by
  simp

/-- What an accepted panel call computes: there is an enumeration of the usable units such that the estimator receives
their outcomes, treatments and (rescaled) weights. -/
theorem panel_arrays (f : Fits κ K) (e : Est) (level : K) {df : List (Row ι ℤ (Obs κ K))} {t0 t1 : ℤ} {D : ι → Bool}
    {W Y0 Y1 : ι → K} (h : PanelFrame df t0 t1 D W Y0 Y1) :
    ∃ (n : ℕ) (u : Fin n → ι) (c : K) (x : Fin n → κ → K), 0 < c ∧ Function.Injective u ∧
      (∀ a, a ∈ usable df t0 t1 ↔ ∃ i, u i = a) ∧
      (∀ i, ∃ r ∈ df, r.id = u i ∧ r.t = t1 ∧ ∃ v, r.val.v = some v ∧ x i = v.x) ∧
      runFrame f e true level df =
        panelEst f e level n (fun i => Y1 (u i)) (fun i => Y0 (u i)) (fun i => D (u i)) x (fun i => W (u i) / c) := by
  have hfull : ∀ r ∈ df, r.val.v ≠ none := by
    intro r hr
    obtain ⟨v, hv, _⟩ := h.vals r hr
    rw [hv]; simp
  have hc := filterMap_full hfull
  obtain ⟨c, hcdef⟩ : ∃ c, c = df.map fullRow := ⟨_, rfl⟩
  obtain ⟨m, hm⟩ : ∃ m, m = meanW c := ⟨_, rfl⟩
  obtain ⟨d, hd⟩ : ∃ d, d = df.map (prepRow m) := ⟨_, rfl⟩
  have hnorm : normW c = d := by rw [hcdef, normW_map, ← hcdef, ← hm, hd]
  -- the mean weight is positive
  have hwrow : ∀ r ∈ df, (fullRow r).val.w = W r.id := by
    intro r hr
    obtain ⟨v, hv, hw⟩ := h.vals r hr
    rw [(fullRow_val r v hv).2.1, hw]
  have hmpos : 0 < m := by
    rw [hm, hcdef]
    unfold meanW
    have hex : ∃ r ∈ df, 0 < W r.id := by
      by_contra hn
      push Not at hn
      have hz : ∑ u ∈ usable df t0 t1 with D u = true, W u ≤ 0 := by
        apply Finset.sum_nonpos
        intro u hu
        rw [Finset.mem_filter] at hu
        obtain ⟨r, hr, hru, _⟩ := row_of_usable hu.1 t0 (Or.inl rfl)
        rw [← hru]; exact hn r hr
      exact absurd h.treated (not_lt.2 hz)
    obtain ⟨r, hr, hrw⟩ := hex
    apply div_pos
    · rw [List.map_map]
      have hmap : df.map ((fun r => r.val.w) ∘ fullRow) = df.map fun r => W r.id := by
        apply List.map_congr_left
        intro s hs
        exact hwrow s hs
      rw [hmap]
      have h1 : W r.id ≤ (df.map fun r => W r.id).sum := by
        apply List.single_le_sum
        · intro x hx
          obtain ⟨s, hs, rfl⟩ := List.mem_map.1 hx
          exact h.nonneg s hs
        · exact List.mem_map.2 ⟨r, hr, rfl⟩
      linarith
    · rw [List.length_map]
      have : 0 < df.length := List.length_pos_of_mem hr
      exact_mod_cast this
  have hobs : ∀ u t, obsCount d u t = obsCount df u t := by
    intro u t
    rw [hd]
    exact obsCount_map df (prepRow m) (fun r => rfl) (fun r => rfl) u t
  have htimes : d.map Row.t = df.map Row.t := by
    rw [hd, List.map_map]; rfl
  have hall : ∀ r ∈ d, r.t = t0 ∨ r.t = t1 := by
    intro r hr
    rw [hd] at hr
    obtain ⟨s, hs, rfl⟩ := List.mem_map.1 hr
    exact h.times s hs
  have hdok := h.dataOk
  have h2 : nUnique (d.map Row.t) = 2 := by
    rw [htimes]
    unfold dataOk at hdok
    simp only [Bool.and_eq_true, decide_eq_true_eq] at hdok
    exact hdok.1.1
  obtain ⟨u0, hu0, _⟩ := h.exU true
  have hb := sortedTimes_balanced d t0 t1 h.lt hall h2 u0 (by rw [hobs, hobs]; exact mem_usable.1 hu0)
  -- rows of the build
  have hrow : ∀ t, ∀ r ∈ complete d t0 t1 t, ∃ s ∈ df, r = prepRow m s ∧ s.t = t ∧ s.id ∈ usable df t0 t1 := by
    intro t r hr
    obtain ⟨hr1, hr2, hr3⟩ := mem_complete.1 hr
    rw [hd] at hr1
    obtain ⟨s, hs, rfl⟩ := List.mem_map.1 hr1
    refine ⟨s, hs, rfl, hr2, ?_⟩
    rw [mem_usable, ← hobs, ← hobs]
    exact hr3
  have hkeyof : ∀ t, (complete d t0 t1 t).map (fun r => invKey r.val) =
      ((complete d t0 t1 t).map Row.id).map fun u => ((if D u then 1 else 0 : ℤ), W u / m) := by
    intro t
    rw [List.map_map]
    apply List.map_congr_left
    intro r hr
    obtain ⟨s, hs, rfl, _, _⟩ := hrow t r hr
    simp only [invKey, prepRow, Function.comp, fullRow_d, h.treat s hs, hwrow s hs]
  have htb : twoBuild invKey d = some ⟨complete d t0 t1 t1, complete d t0 t1 t0, (complete d t0 t1 t1).length⟩ := by
    rw [twoBuild_eq invKey d t0 t1 h.lt hall h2 hb, if_pos]
    rw [hkeyof, hkeyof, complete_ids_eq]
  have hrun : runFrame f e true level df =
      runPanel f e level ⟨complete d t0 t1 t1, complete d t0 t1 t0, (complete d t0 t1 t1).length⟩ := by
    unfold runFrame
    rw [if_neg (by simp [hdok]), if_neg (by simp [h.panelOk]), if_neg (by simp [h.weightsOk])]
    have hdn : dropNulls true df = some c := by
      unfold dropNulls
      dsimp only
      rw [hc, if_neg (by simp), hcdef]
    rw [hdn]
    dsimp only
    rw [hnorm, if_pos rfl, htb]
  obtain ⟨L, hL⟩ : ∃ L, L = complete d t0 t1 t1 := ⟨_, rfl⟩
  obtain ⟨P, hP⟩ : ∃ P, P = complete d t0 t1 t0 := ⟨_, rfl⟩
  have hids : L.map Row.id = P.map Row.id := by rw [hL, hP]; exact complete_ids_eq d t0 t1
  have hLrow : ∀ i : Fin L.length, ∃ s ∈ df, L[i] = prepRow m s ∧ s.t = t1 ∧ s.id ∈ usable df t0 t1 := by
    intro i
    exact hrow t1 _ (by rw [← hL]; exact List.getElem_mem _)
  refine ⟨L.length, fun i => (L[i]).id, m, fun i => (L[i]).val.x, hmpos, ?_, ?_, ?_, ?_⟩
  · intro i j hij
    have hnd : (L.map Row.id).Nodup := by rw [hL]; exact complete_nodup d t0 t1 t1 (Or.inr rfl)
    have h1 := (List.Nodup.getElem_inj_iff hnd (i := (i : ℕ)) (j := (j : ℕ))
      (hi := by rw [List.length_map]; exact i.2) (hj := by rw [List.length_map]; exact j.2)).1 (by
        simp only [List.getElem_map]; exact hij)
    exact Fin.ext h1
  · intro a
    have : a ∈ usable df t0 t1 ↔ a ∈ L.map Row.id := by
      rw [hL, mem_complete_ids (Or.inr rfl), hobs, hobs, mem_usable]
    rw [this, List.mem_map]
    constructor
    · rintro ⟨r, hr, rfl⟩
      obtain ⟨i, hi, rfl⟩ := List.getElem_of_mem hr
      exact ⟨⟨i, hi⟩, rfl⟩
    · rintro ⟨i, rfl⟩
      exact ⟨L[i], List.getElem_mem _, rfl⟩
  · intro i
    obtain ⟨s, hs, hLi, hst, _⟩ := hLrow i
    obtain ⟨v, hv, _⟩ := h.vals s hs
    refine ⟨s, hs, ?_, hst, v, hv, ?_⟩
    · show s.id = (L[i]).id
      rw [hLi]; rfl
    · show (L[i]).val.x = v.x
      rw [hLi]
      exact (fullRow_val s v hv).2.2
  · rw [hrun, ← hL, ← hP]
    unfold runPanel
    dsimp only
    have e1 : (fun i : Fin L.length => (L[i]).val.y) = fun i => Y1 (L[i]).id := by
      funext i
      obtain ⟨s, hs, hLi, hst, hsu⟩ := hLrow i
      obtain ⟨v, hv, _⟩ := h.vals s hs
      rw [hLi]
      show (fullRow s).val.y = Y1 s.id
      rw [(fullRow_val s v hv).1]
      exact h.post s hs hst hsu v hv
    have e2 : (fun i : Fin L.length => ((P.map fun r => r.val.y)[(i : ℕ)]?).getD 0) = fun i => Y0 (L[i]).id := by
      have hPy : (P.map fun r => r.val.y) = (L.map Row.id).map Y0 := by
        rw [hids, List.map_map]
        apply List.map_congr_left
        intro r hr
        rw [hP] at hr
        obtain ⟨s, hs, rfl, hst, hsu⟩ := hrow t0 r hr
        obtain ⟨v, hv, _⟩ := h.vals s hs
        show (fullRow s).val.y = Y0 s.id
        rw [(fullRow_val s v hv).1]
        exact h.pre s hs hst hsu v hv
      funext i
      rw [hPy, List.map_map, map_getElem_eq]
      rfl
    have e3 : (fun i : Fin L.length => decide ((L[i]).val.d = 1)) = fun i => D (L[i]).id := by
      funext i
      obtain ⟨s, hs, hLi, hst, hsu⟩ := hLrow i
      rw [hLi]
      show decide ((fullRow s).val.d = 1) = D s.id
      rw [fullRow_d, h.treat s hs]
      cases D s.id <;> simp
    have e4 : (fun i : Fin L.length => (L[i]).val.w) = fun i => W (L[i]).id / m := by
      funext i
      obtain ⟨s, hs, hLi, hst, hsu⟩ := hLrow i
      rw [hLi]
      show (fullRow s).val.w / m = W s.id / m
      rw [hwrow s hs]
    rw [e1, e2, e3, e4]

end Verif.DR.Entry
