import Verif.Report.Model

/-!
# C235, C236: printed summaries and plot data
-/

set_option linter.unusedSectionVars false
set_option linter.unusedSimpArgs false

namespace Verif.Report

open Verif.Honest MeasureTheory ProbabilityTheory

/-! ## Specification -/

/-- Probability that the interval computed from an estimate with law `N(θ, s²)` contains `θ`. -/
noncomputable def coverage (θ s : ℝ) (interval : ℝ → ℝ × ℝ) : ℝ :=
  (gaussianReal θ (s ^ 2).toNNReal).real {x | (interval x).1 ≤ θ ∧ θ ≤ (interval x).2}

theorem coverage_row (θ s c : ℝ) : coverage θ s (fun x => rowInterval c x s) = absNormal 0 s (c * s) := by
  unfold coverage absNormal
  have hmap : gaussianReal θ (s ^ 2).toNNReal = (gaussianReal 0 (s ^ 2).toNNReal).map (fun x => x + θ) := by
    rw [gaussianReal_map_add_const, zero_add]
  rw [hmap, map_measureReal_apply (by fun_prop : Measurable fun x : ℝ => x + θ)]
  · congr 1
    ext x
    simp only [rowInterval, Set.mem_preimage, Set.mem_setOf_eq, Set.mem_Icc]
    constructor
    · rintro ⟨h1, h2⟩; exact ⟨by linarith, by linarith⟩
    · rintro ⟨h1, h2⟩; exact ⟨by linarith, by linarith⟩
  · have : {x : ℝ | (rowInterval c x s).1 ≤ θ ∧ θ ≤ (rowInterval c x s).2} = Set.Icc (θ - c * s) (θ + c * s) := by
      ext x
      simp only [rowInterval, Set.mem_setOf_eq, Set.mem_Icc]
      constructor
      · rintro ⟨h1, h2⟩; exact ⟨by linarith, by linarith⟩
      · rintro ⟨h1, h2⟩; exact ⟨by linarith, by linarith⟩
    rw [this]
    exact measurableSet_Icc

theorem coverage_z (θ s a : ℝ) (ha0 : 0 < a) (ha1 : a < 1) (hs : 0 < s) : coverage θ s (fun x => rowInterval (zcrit a) x s) = 1 - a := by
  rw [coverage_row]
  exact abs_level a s ha0 ha1 hs

/-! ## C235 -/

/-- **C235.**  A row is marked `*` exactly if its interval does not contain zero; rows without a standard error are never marked. -/
theorem C235_star (crit att : ℝ) (se : Option ℝ) :
    (∀ s, se = some s → ∃ b, tableRow crit att se = some ((att - crit * s, att + crit * s), b) ∧
      (b = true ↔ (0 : ℝ) ∉ Set.Icc (att - crit * s) (att + crit * s))) ∧
    (se = none → tableRow crit att se = none) ∧ ∀ l, star l none = false ∧ star none l = false := by
  refine ⟨?_, ?_, ?_⟩
  · rintro s rfl
    refine ⟨_, rfl, ?_⟩
    rw [star, Bool.or_eq_true, decide_eq_true_eq, decide_eq_true_eq, Set.mem_Icc, not_and_or, not_le, not_le]
    exact or_comm
  · rintro rfl; rfl
  · intro l; cases l <;> exact ⟨rfl, rfl⟩

/-- **C235.**  The printed level is the level of the result rounded down to a whole percentage. -/
theorem C235_rounding (a : ℝ) (h1 : a < 1) :
    (levelOf a : ℝ) ≤ (1 - a) * 100 ∧ (1 - a) * 100 < levelOf a + 1 ∧ (∀ n : ℕ, (1 - a) * 100 = n → levelOf a = n) := by
  refine ⟨Nat.floor_le (by nlinarith), Nat.lt_floor_add_one _, ?_⟩
  intro n h
  rw [levelOf, h, Nat.floor_natCast]

/-- **C235.**  A level given to `aggte` is the one printed, and the printed overall interval and the pointwise intervals of the effects hold
it: they cover with probability `1 - alpha` when the estimate is normal with the printed standard error. -/
theorem C235_explicit_level (m : Mp) (a : ℝ) (ha0 : 0 < a) (ha1 : a < 1) (boot cband : Option Bool) (cv : ℝ → Option ℝ) (θ s : ℝ) (hs : 0 < s) :
    (∀ x, (printOverall m (some a) boot cband cv x s).1 = levelOf a ∧ (printEvent m (some a) boot cband cv x s).level = levelOf a) ∧
    coverage θ s (fun x => (printOverall m (some a) boot cband cv x s).2) = 1 - a ∧
    (cband.getD m.params.uniform = false ∨ cv a = none →
      coverage θ s (fun x => (printEvent m (some a) boot cband cv x s).interval) = 1 - a) := by
  have hal : (batchedCrit (aggParams m (some a) boot cband).1 a cv).2.alpha = some a := by
    unfold batchedCrit
    split_ifs
    · cases cv a <;> rfl
    · rfl
  have hlev : aggLevel (batchedCrit (aggParams m (some a) boot cband).1 a cv).2 = levelOf a := by
    unfold aggLevel
    rw [hal]
    rfl
  refine ⟨fun x => ⟨hlev, hlev⟩, ?_, ?_⟩
  · have h : (fun x => (printOverall m (some a) boot cband cv x s).2) = fun x => rowInterval (zcrit a) x s := by
      funext x
      show aggOverall (batchedCrit (aggParams m (some a) boot cband).1 a cv).2 x s = _
      unfold aggOverall
      rw [hal]
      rfl
    rw [h]
    exact coverage_z θ s a ha0 ha1 hs
  · intro hcb
    have h : (fun x => (printEvent m (some a) boot cband cv x s).interval) = fun x => rowInterval (zcrit a) x s := by
      funext x
      show rowInterval (batchedCrit (aggParams m (some a) boot cband).1 a cv).1 x s = _
      congr 1
      unfold batchedCrit
      rcases hcb with hcb | hcb
      · rw [if_neg]
        show ¬ (cband.getD m.params.uniform = true)
        rw [hcb]; decide
      · rw [hcb]
        split_ifs <;> rfl
    rw [h]
    exact coverage_z θ s a ha0 ha1 hs

/-- **C235, violated.**  `aggte` without a level after `att_gt(alp=a)`: everything is printed as 95%, whatever `a` is; the overall interval is
the 95% interval (not the one for `a`), and the pointwise intervals of the effects printed under the same 95% cover with probability
`1 - a`. -/
theorem C235_inherited_level_violated (a : ℝ) (ha0 : 0 < a) (ha1 : a < 1) (boot cband : Bool) (bootArg cbandArg : Option Bool)
    (cv : ℝ → Option ℝ) (θ s : ℝ) (hs : 0 < s) :
    (∀ x, (printOverall (attGtMp a boot cband) none bootArg cbandArg cv x s).1 = 95 ∧
      (printEvent (attGtMp a boot cband) none bootArg cbandArg cv x s).level = 95) ∧
    coverage θ s (fun x => (printOverall (attGtMp a boot cband) none bootArg cbandArg cv x s).2) = 1 - 5 / 100 ∧
    (cbandArg.getD cband = false ∨ cv a = none →
      coverage θ s (fun x => (printEvent (attGtMp a boot cband) none bootArg cbandArg cv x s).interval) = 1 - a) := by
  have hal : (batchedCrit (aggParams (attGtMp a boot cband) none bootArg cbandArg).1 a cv).2.alpha = none := by
    unfold batchedCrit
    split_ifs
    · cases cv a <;> rfl
    · rfl
  have hlev : aggLevel (batchedCrit (aggParams (attGtMp a boot cband) none bootArg cbandArg).1 a cv).2 = 95 := by
    unfold aggLevel
    rw [hal]
    exact (C235_rounding (5 / 100) (by norm_num)).2.2 95 (by norm_num)
  refine ⟨fun x => ⟨hlev, hlev⟩, ?_, ?_⟩
  · have h : (fun x => (printOverall (attGtMp a boot cband) none bootArg cbandArg cv x s).2) = fun x => rowInterval (zcrit (5 / 100)) x s := by
      funext x
      show aggOverall (batchedCrit (aggParams (attGtMp a boot cband) none bootArg cbandArg).1 a cv).2 x s = _
      unfold aggOverall
      rw [hal]
      rfl
    rw [h]
    exact coverage_z θ s _ (by norm_num) (by norm_num) hs
  · intro hcb
    have h : (fun x => (printEvent (attGtMp a boot cband) none bootArg cbandArg cv x s).interval) = fun x => rowInterval (zcrit a) x s := by
      funext x
      show rowInterval (batchedCrit (aggParams (attGtMp a boot cband) none bootArg cbandArg).1 a cv).1 x s = _
      congr 1
      unfold batchedCrit
      rcases hcb with hcb | hcb
      · rw [if_neg]
        show ¬ (cbandArg.getD cband = true)
        rw [hcb]; decide
      · rw [hcb]
        split_ifs <;> rfl
    rw [h]
    exact coverage_z θ s a ha0 ha1 hs

/-- **C235.**  The bands of the effects are labelled simultaneous only if their critical value is the (finite) simultaneous one; when it is
not finite the pointwise value is used and labelled so. -/
theorem C235_label (m : Mp) (alpha : Option ℝ) (boot cband : Option Bool) (cv : ℝ → Option ℝ) (x s : ℝ)
    (h : (printEvent m alpha boot cband cv x s).simultaneous = true) :
    ∃ c, cv (alpha.getD m.alpha) = some c ∧ (printEvent m alpha boot cband cv x s).interval = (x - c * s, x + c * s) := by
  have hq : (aggParams m alpha boot cband).2 = alpha.getD m.alpha := by cases alpha <;> rfl
  unfold printEvent at h ⊢
  dsimp only at h ⊢
  rw [hq] at h ⊢
  unfold batchedCrit at h ⊢
  split_ifs at h ⊢ with hu
  · cases hc : cv (alpha.getD m.alpha) with
    | some c => exact ⟨c, rfl, rfl⟩
    | none => rw [hc] at h; simp [simultLabel] at h
  · rw [simultLabel, Bool.and_eq_true] at h
    exact absurd h.2 hu

/-- **C235, violated.**  With uniform bands and without the bootstrap for the standard errors, the bands of the effects are simultaneous (the
critical value is the simultaneous one) and labelled pointwise. -/
theorem C235_label_violated (m : Mp) (alpha : Option ℝ) (cv : ℝ → Option ℝ) (c x s : ℝ) (hc : cv (alpha.getD m.alpha) = some c) :
    (printEvent m alpha (some false) (some true) cv x s).simultaneous = false ∧
    (printEvent m alpha (some false) (some true) cv x s).interval = (x - c * s, x + c * s) := by
  have hq : (aggParams m alpha (some false) (some true)).2 = alpha.getD m.alpha := by cases alpha <;> rfl
  have hu : (aggParams m alpha (some false) (some true)).1.uniform = true := rfl
  unfold printEvent
  dsimp only
  rw [hq]
  unfold batchedCrit
  rw [if_pos hu, hc]
  exact ⟨rfl, rfl⟩

/-- `att_gt(alp=0.1, cband=False)` and then `aggte`: printed as 95%, covering with 90%. -/
example : (printEvent (attGtMp (1 / 10) false false) none none none (fun _ => none) 2 1).level = 95 ∧
    coverage 0 1 (fun x => (printEvent (attGtMp (1 / 10) false false) none none none (fun _ => none) x 1).interval) = 9 / 10 := by
  have h := C235_inherited_level_violated (1 / 10) (by norm_num) (by norm_num) false false none none (fun _ => none) 0 1 one_pos
  refine ⟨(h.1 2).2, (h.2.2 (Or.inl rfl)).trans (by norm_num)⟩

example : (printOverall (attGtMp (1 / 10) false false) (some (1 / 10)) none none (fun _ => none) 2 1).1 = 90 := by
  rw [((C235_explicit_level _ (1 / 10) (by norm_num) (by norm_num) none none _ 0 1 one_pos).1 2).1]
  exact (C235_rounding (1 / 10) (by norm_num)).2.2 90 (by norm_num)

example : (printEvent (attGtMp (5 / 100) true true) none none none (fun _ => some 3) 2 1).simultaneous = true := by
  simp [printEvent, aggParams, attGtMp, batchedCrit, simultLabel]

example : (printEvent (attGtMp (5 / 100) true true) none (some false) (some true) (fun _ => some 3) 2 1).interval = (2 - 3 * 1, 2 + 3 * 1) :=
  (C235_label_violated _ none _ 3 2 1 rfl).2

example : levelOf (25 / 1000) = 97 := by
  rw [levelOf, Nat.floor_eq_iff (by norm_num)]
  norm_num

example : tableRow 2 3 (some 1) = some ((3 - 2 * 1, 3 + 2 * 1), true) := by
  simp [tableRow, star, rowInterval]
  norm_num

/-! ## C236 -/

/-- **C236.**  The data of an event-study, group or calendar plot: one row per effect with a standard error, in the order of the result, with
the interval `att ± crit * se`; an effect is in the pre-treatment colour exactly if its event time is negative. -/
theorem C236_events (status : Bool) (crit : ℝ) (rows : List (ℝ × ℝ × Option ℝ)) :
    ∃ out, plotEvents false status (some crit) rows = some out ∧
      out.map (fun r => (r.x, r.att, r.se)) = rows.filter (fun r => r.2.2.isSome) ∧
      ∀ r ∈ out, ∃ s, r.se = some s ∧ r.ci = some (r.att - crit * s, r.att + crit * s) ∧
        (status = true → (r.post = some false ↔ r.x < 0) ∧ (r.post = some true ↔ 0 ≤ r.x)) := by
  refine ⟨_, if_neg (by decide), ?_, ?_⟩
  · rw [List.filter_map, List.map_map]
    exact List.map_id' _
  · intro r hr
    rw [List.mem_filter, List.mem_map] at hr
    obtain ⟨⟨q, _, rfl⟩, hs⟩ := hr
    obtain ⟨s, hs⟩ := Option.isSome_iff_exists.1 hs
    dsimp only at hs ⊢
    refine ⟨s, hs, by rw [hs]; rfl, ?_⟩
    rintro rfl
    by_cases h : q.1 < 0
    · simp [h]
    · simp [h, not_lt.1 h]

/-- **C236.**  The plotted intervals are the printed ones. -/
theorem C236_agrees_with_print (status : Bool) (crit : ℝ) (rows : List (ℝ × ℝ × Option ℝ)) (out : List PlotRow)
    (h : plotEvents false status (some crit) rows = some out) :
    out.map (fun r => r.ci) = (rows.filterMap fun r => tableRow crit r.2.1 r.2.2).map fun t => some t.1 := by
  unfold plotEvents at h
  rw [if_neg (by decide), Option.some.injEq] at h
  rw [← h]
  clear h
  induction rows with
  | nil => rfl
  | cons r rs ih =>
    obtain ⟨x, att, se⟩ := r
    cases se with
    | none =>
      rw [List.map_cons, List.filter_cons_of_neg (by simp), List.filterMap_cons_none rfl]
      exact ih
    | some s =>
      have e : (fun r : ℝ × ℝ × Option ℝ => tableRow crit r.2.1 r.2.2) (x, att, some s) = some (rowInterval crit att s,
          star (some (rowInterval crit att s).1) (some (rowInterval crit att s).2)) := rfl
      rw [List.map_cons, List.filter_cons_of_pos (by simp), List.filterMap_cons_some (f := fun r : ℝ × ℝ × Option ℝ => tableRow crit r.2.1 r.2.2) (a := (x, att, some s)) e, List.map_cons, List.map_cons, ih]
      rfl

/-- **C236.**  Group-time plots keep every cell; a cell is pre-treatment exactly if its period is before its group. -/
theorem C236_cells (crit : ℝ) (rows : List (ℝ × ℝ × ℝ × Option ℝ)) :
    (plotGt crit rows).map (fun r => (r.1, r.2.x, r.2.att, r.2.se)) = rows ∧
    ∀ r ∈ plotGt crit rows, (r.2.post = some false ↔ r.2.x < r.1) ∧ (r.2.post = some true ↔ r.1 ≤ r.2.x) ∧
      r.2.ci = r.2.se.map fun s => (r.2.att - crit * s, r.2.att + crit * s) := by
  refine ⟨?_, ?_⟩
  · unfold plotGt
    rw [List.map_map]
    exact List.map_id' _
  · intro r hr
    obtain ⟨q, _, rfl⟩ := List.mem_map.1 hr
    dsimp only
    by_cases h : q.2.1 < q.1
    · refine ⟨by simp [h], by simp [h], rfl⟩
    · refine ⟨by simp [h], by simp [h, not_lt.1 h], rfl⟩

/-- **C236.**  Sensitivity plots: with at least two values of the parameter (distinct, increasing) the original interval is drawn strictly to
the left of all robust ones, by the smallest gap. -/
theorem C236_original (m m' : ℝ) (rest : List ℝ) (h : (m :: m' :: rest).Pairwise (· < ·)) :
    ∃ x, originalM (m :: m' :: rest) = some x ∧ (∀ y ∈ m :: m' :: rest, x < y) ∧
      ∃ a b, a ∈ m :: m' :: rest ∧ b ∈ m :: m' :: rest ∧ a < b ∧ m - x = b - a := by
  have key : ∀ (l : List ℝ) (L : List ℝ) (g : ℝ), (∀ d ∈ L, 0 < d ∧ ∃ a b, a ∈ l ∧ b ∈ l ∧ a < b ∧ d = b - a) →
      (0 < g ∧ ∃ a b, a ∈ l ∧ b ∈ l ∧ a < b ∧ g = b - a) →
      0 < L.foldr min g ∧ ∃ a b, a ∈ l ∧ b ∈ l ∧ a < b ∧ L.foldr min g = b - a := by
    intro l L g hL hg
    induction L with
    | nil => exact hg
    | cons d L ih =>
      have i := ih fun x hx => hL x (List.mem_cons_of_mem _ hx)
      have hd := hL d List.mem_cons_self
      rw [List.foldr_cons]
      rcases min_choice d (L.foldr min g) with e | e <;> rw [e]
      · exact hd
      · exact i
  have hmm : m < m' := (List.pairwise_cons.1 h).1 m' (by simp)
  have hz : ∀ d ∈ List.zipWith (fun a b => b - a) (m :: m' :: rest) (m' :: rest), 0 < d ∧
      ∃ a b, a ∈ m :: m' :: rest ∧ b ∈ m :: m' :: rest ∧ a < b ∧ d = b - a := by
    intro d hd
    obtain ⟨i, hi, rfl⟩ := List.mem_iff_getElem.1 hd
    rw [List.length_zipWith] at hi
    have h1 : i < (m' :: rest).length := by omega
    have h0 : i + 1 < (m :: m' :: rest).length := by simpa using h1
    have hlt := List.pairwise_iff_getElem.1 h i (i + 1) (by omega) h0 (by omega)
    rw [List.getElem_zipWith]
    have e : (m :: m' :: rest)[i + 1] = (m' :: rest)[i] := List.getElem_cons_succ ..
    rw [e] at hlt
    exact ⟨by linarith, _, _, List.getElem_mem _, List.mem_cons_of_mem _ (List.getElem_mem h1), hlt, rfl⟩
  obtain ⟨hg, a, b, ha, hb, hab, e⟩ := key _ _ (m' - m) hz ⟨by linarith, m, m', by simp, by simp, hmm, rfl⟩
  refine ⟨_, rfl, ?_, a, b, ha, hb, hab, by rw [← e]; ring⟩
  intro y hy
  have : m ≤ y := by
    rcases List.mem_cons.1 hy with rfl | hy
    · exact le_rfl
    · exact ((List.pairwise_cons.1 h).1 y hy).le
  linarith

/-- **C236, violated.**  With a single value of the parameter the original interval is drawn at zero, whatever the value: for the value zero
it is drawn on top of the robust interval instead of to its left. -/
theorem C236_original_violated (m : ℝ) : originalM [m] = some 0 ∧ (¬ (∃ x, originalM [m] = some x ∧ x < m) ↔ m ≤ 0) := by
  refine ⟨by simp [originalM], ?_⟩
  simp [originalM]

/-- **C236.**  Plots of intertemporal effects: every placebo and every effect appears once, placebos as pre-treatment and effects as
post-treatment rows, and with negative placebo and positive effect horizons the rows are in the order of the horizons. -/
theorem C236_inter (placebos effects : List PlotRow) (hp : ∀ r ∈ placebos, r.x < 0) (he : ∀ r ∈ effects, 0 < r.x) :
    (plotInter (some placebos) effects).Perm ((placebos.map fun r => { r with post := some false }) ++
      effects.map fun r => { r with post := some true }) ∧
    (plotInter (some placebos) effects).Pairwise (fun a b => a.x ≤ b.x) := by
  have tot : Std.Total fun a b : PlotRow => a.x ≤ b.x := ⟨fun a b => le_total _ _⟩
  have tr : IsTrans PlotRow fun a b : PlotRow => a.x ≤ b.x := ⟨fun a b c => le_trans⟩
  unfold plotInter
  refine ⟨((List.perm_insertionSort _ _).map _).append ((List.perm_insertionSort _ _).map _), ?_⟩
  rw [List.pairwise_append]
  refine ⟨?_, ?_, ?_⟩
  · exact List.pairwise_map.2 (List.pairwise_insertionSort _ _)
  · exact List.pairwise_map.2 (List.pairwise_insertionSort _ _)
  · intro a ha b hb
    obtain ⟨a', ha', rfl⟩ := List.mem_map.1 ha
    obtain ⟨b', hb', rfl⟩ := List.mem_map.1 hb
    exact ((hp a' ((List.mem_insertionSort _).1 ha')).trans (he b' ((List.mem_insertionSort _).1 hb'))).le

/-- The reference period of a universal base (event time `-1`, effect 0, no standard error) is not drawn. -/
example : ∃ out, plotEvents false true (some 2) [(-2, 1, some 1), (-1, 0, none), (0, 3, some 1)] = some out ∧ out.map (·.x) = [-2, 0] := by
  refine ⟨_, rfl, ?_⟩
  simp

example : originalM [1, 2, 5 / 2] = some (1 / 2) := by
  simp [originalM]
  norm_num

example : originalM [(0 : ℝ)] = some 0 := (C236_original_violated 0).1

example : (plotInter (some [⟨-1, 0, none, none, none⟩, ⟨-2, 0, none, none, none⟩]) [⟨2, 0, none, none, none⟩, ⟨1, 0, none, none, none⟩]).map (·.x) =
    [-2, -1, 1, 2] := by
  simp [plotInter, List.insertionSort, List.orderedInsert]

end Verif.Report
