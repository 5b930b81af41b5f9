import Verif.Cont.PteProps
import Verif.Cont.PteQuant
import Mathlib.Analysis.Real.Sqrt
import Mathlib.Algebra.Order.BigOperators.Ring.List

set_option linter.unusedSectionVars false
set_option linter.unusedSimpArgs false

/-!
# Standard errors of the empirical bootstrap of `pte` (C228)

Models `panel_empirical_bootstrap` (`moderndid/didcont/estimation/bootstrap.py:13-183`): how replicates are set up and how their results are
turned into standard errors.
-/

namespace Verif.Cont

open Verif.Panel

/-! ## Model -/

/-- The results of one replicate, `bootstrap.py:92-103`: cells, event-study effects (empty if `dyn_results` is `None`), overall effect. -/
structure Replicate where
  cells : List ((ℤ × ℤ) × ℝ)
  dyn : List (ℤ × ℝ)
  overall : ℝ

/-- Sum of squared deviations from the mean. -/
noncomputable def sumSq (xs : List ℝ) : ℝ := (xs.map fun x => (x - xs.sum / (xs.length : ℝ)) ^ 2).sum

/-- polars `std()` (one degree of freedom less), null for fewer than two values, `bootstrap.py:112,135`. -/
noncomputable def stdSample (xs : List ℝ) : Option ℝ := if xs.length < 2 then none else some (Real.sqrt (sumSq xs / ((xs.length : ℝ) - 1)))

/-- `np.std` (population formula), `bootstrap.py:173`. -/
noncomputable def stdPop (xs : List ℝ) : Option ℝ := if 1 < xs.length then some (Real.sqrt (sumSq xs / (xs.length : ℝ))) else none

/-- Values of one key over all replicates, `bootstrap.py:105-112,123-135`. -/
def valuesOf {κ : Type*} [DecidableEq κ] (tables : List (List (κ × ℝ))) (k : κ) : List ℝ :=
  (tables.flatten.filter fun p => decide (p.1 = k)).map Prod.snd

/-- Standard errors of cells: a left join, so that a cell without replicate values has none, `bootstrap.py:112-120`. -/
noncomputable def cellSes (atts : List ((ℤ × ℤ) × ℝ)) (reps : List Replicate) : List ((ℤ × ℤ) × ℝ × Option ℝ) :=
  atts.map fun p => (p.1, p.2, if valuesOf (reps.map Replicate.cells) p.1 = [] then none else stdSample (valuesOf (reps.map Replicate.cells) p.1))

/-- Event times estimated in every replicate, `bootstrap.py:125-127`. -/
def completeTimes (reps : List Replicate) (e : ℤ) : Bool := decide ((valuesOf (reps.map Replicate.dyn) e).length = reps.length)

/-- Event-study effects with standard errors, `bootstrap.py:122-142` (an inner join). -/
noncomputable def dynSes (dyn : List (ℤ × ℝ)) (reps : List Replicate) : List (ℤ × ℝ × Option ℝ) :=
  (dyn.filter fun p => completeTimes reps p.1 && decide (valuesOf (reps.map Replicate.dyn) p.1 ≠ [])).map fun p =>
    (p.1, p.2, stdSample (valuesOf (reps.map Replicate.dyn) p.1))

/-- Standard error of the overall effect, `bootstrap.py:172-175`. -/
noncomputable def overallSe (reps : List Replicate) : Option ℝ := stdPop (reps.map Replicate.overall)

/-- Options that reach the cells of a replicate. -/
structure PteOpts where
  weightsname : Option String
  retQuantile : Option ℝ
  dvals : Option (List ℝ)

/-- The options of a replicate: `setup_pte` is called without `weightsname` and `ret_quantile` (both are consumed by `pte` and are not in
`kwargs`), and sets `dvals` to `None`, `bootstrap.py:77-88`, `process_panel.py:34-53,357-362,435-436`. -/
noncomputable def replicateOpts (_ : PteOpts) : PteOpts := { weightsname := none, retQuantile := some (1 / 2), dvals := none }

/-- `cont_did_acrt`: without dose values the effect is `0`; otherwise the estimate `x`, `didcont/cont_did.py:586-587`. -/
noncomputable def acrtCell (o : PteOpts) (x : ℝ) : ℝ := if (o.dvals.getD []).length = 0 then 0 else x

/-- One replicate of a slope event study: every cell is `cont_did_acrt` under the replicate's options, aggregated with the replicate's cohort
sizes, `bootstrap.py:77-103,186-342`. -/
noncomputable def slopeReplicate (o : PteOpts) (n : ℤ → ℝ) (cells : List (ℤ × ℤ)) (est : ℤ × ℤ → ℝ) (es : List ℤ) : Replicate :=
  { cells := cells.map fun c => (c, acrtCell (replicateOpts o) (est c))
    dyn := es.filterMap fun e => (empDyn n cells (fun c => acrtCell (replicateOpts o) (est c)) e).map fun x => (e, x)
    overall := (empOverall n cells fun c => acrtCell (replicateOpts o) (est c)).getD 0 }

/-! ## Lemmas -/

theorem sumSq_nonneg (xs : List ℝ) : 0 ≤ sumSq xs :=
  List.sum_nonneg (by intro y hy; obtain ⟨x, _, rfl⟩ := List.mem_map.1 hy; positivity)

theorem sumSq_const (xs : List ℝ) (c : ℝ) (h : ∀ x ∈ xs, x = c) : sumSq xs = 0 := by
  unfold sumSq
  have hs : xs.sum = (xs.length : ℝ) * c := by
    induction xs with
    | nil => simp
    | cons a l ih =>
      rw [List.sum_cons, ih fun x hx => h x (List.mem_cons_of_mem _ hx), h a (by simp), List.length_cons]
      push_cast; ring
  refine List.sum_eq_zero ?_
  intro y hy
  obtain ⟨x, hx, rfl⟩ := List.mem_map.1 hy
  have hl : (xs.length : ℝ) ≠ 0 := by
    have := List.length_pos_of_mem hx
    exact_mod_cast this.ne'
  rw [hs, h x hx, mul_div_cancel_left₀ _ hl, sub_self]
  norm_num

/-- The sum of squares vanishes only if all values are equal. -/
theorem sumSq_pos (xs : List ℝ) (x y : ℝ) (hx : x ∈ xs) (hy : y ∈ xs) (hne : x ≠ y) : 0 < sumSq xs := by
  rcases (sumSq_nonneg xs).lt_or_eq with h | h
  · exact h
  · exfalso
    have hz : ∀ z ∈ xs, z = xs.sum / (xs.length : ℝ) := by
      intro z hz
      have hle : (z - xs.sum / (xs.length : ℝ)) ^ 2 ≤ sumSq xs :=
        List.single_le_sum (by intro w hw; obtain ⟨v, _, rfl⟩ := List.mem_map.1 hw; positivity) _ (List.mem_map.2 ⟨z, hz, rfl⟩)
      rw [← h] at hle
      have := pow_eq_zero_iff (two_ne_zero) |>.1 (le_antisymm hle (sq_nonneg _))
      linarith
    exact hne ((hz x hx).trans (hz y hy).symm)

/-! ## C228 -/

/-- Every replicate reports each event time at most once. -/
def NoRepeats (reps : List Replicate) : Prop := ∀ r ∈ reps, (r.dyn.map Prod.fst).Nodup

theorem values_length (tables : List (List (ℤ × ℝ))) (h : ∀ t ∈ tables, (t.map Prod.fst).Nodup) (e : ℤ) :
    (valuesOf tables e).length = tables.countP fun t => decide (e ∈ t.map Prod.fst) := by
  unfold valuesOf
  induction tables with
  | nil => rfl
  | cons t ts ih =>
    have ih' := ih fun t ht => h t (List.mem_cons_of_mem _ ht)
    rw [List.length_map] at ih' ⊢
    rw [List.flatten_cons, List.filter_append, List.length_append, ih', List.countP_cons]
    have hn := h t (by simp)
    have : (t.filter fun p => decide (p.1 = e)).length = if decide (e ∈ t.map Prod.fst) = true then 1 else 0 := by
      rw [← List.countP_eq_length_filter]
      have e1 : t.countP (fun p => decide (p.1 = e)) = (t.map Prod.fst).count e := by
        unfold List.count
        rw [List.countP_map]
        refine List.countP_congr fun p _ => ?_
        simp
      rw [e1]
      by_cases hm : e ∈ t.map Prod.fst
      · rw [if_pos (by simpa using hm), List.count_eq_one_of_mem hn hm]
      · rw [if_neg (by simpa using hm), List.count_eq_zero_of_not_mem hm]
    rw [this]; omega

/-- **C228.**  With at least two replicates, an event time is reported exactly if it was estimated in the data and in every replicate; its
standard error is the sample standard deviation of the replicates' effects (divisor: replicates minus one). -/
theorem C228_event (dyn : List (ℤ × ℝ)) (reps : List Replicate) (hB : 2 ≤ reps.length) (hn : NoRepeats reps) (e : ℤ) (x : ℝ) (s : Option ℝ) :
    (e, x, s) ∈ dynSes dyn reps ↔ (e, x) ∈ dyn ∧ (∀ r ∈ reps, e ∈ r.dyn.map Prod.fst) ∧
      s = some (Real.sqrt (sumSq (valuesOf (reps.map Replicate.dyn) e) / ((reps.length : ℝ) - 1))) := by
  have hlen := values_length (reps.map Replicate.dyn) (by
    intro t ht; obtain ⟨r, hr, rfl⟩ := List.mem_map.1 ht; exact hn r hr) e
  rw [List.countP_map] at hlen
  have hall : (valuesOf (reps.map Replicate.dyn) e).length = reps.length ↔ ∀ r ∈ reps, e ∈ r.dyn.map Prod.fst := by
    rw [hlen, List.countP_eq_length]
    simp only [Function.comp, decide_eq_true_eq]
  unfold dynSes completeTimes
  rw [List.mem_map]
  constructor
  · rintro ⟨p, hp, he⟩
    obtain ⟨hp1, hp2⟩ := List.mem_filter.1 hp
    rw [Bool.and_eq_true, decide_eq_true_eq] at hp2
    simp only [Prod.mk.injEq] at he
    obtain ⟨rfl, rfl, rfl⟩ := he
    refine ⟨hp1, hall.1 hp2.1, ?_⟩
    unfold stdSample
    rw [if_neg (by omega), hp2.1]
  · rintro ⟨h1, h2, rfl⟩
    have h3 := hall.2 h2
    refine ⟨(e, x), List.mem_filter.2 ⟨h1, ?_⟩, ?_⟩
    · rw [Bool.and_eq_true, decide_eq_true_eq, decide_eq_true_eq]
      refine ⟨h3, ?_⟩
      intro h
      rw [h] at h3
      simp only [List.length_nil] at h3
      omega
    · unfold stdSample
      dsimp only
      rw [if_neg (by omega), h3]

/-- **C228 (violated).**  Standard errors of the same estimate computed from the same replicates agree.  They do not: if in the data and in every
replicate the overall effect is the effect at event time `e`, the standard error of the overall effect is smaller, by the factor
`sqrt((B - 1) / B)`, unless all replicates agree. -/
theorem C228_overall_violated (reps : List Replicate) (hB : 2 ≤ reps.length) (e : ℤ)
    (hsame : valuesOf (reps.map Replicate.dyn) e = reps.map Replicate.overall) :
    ∃ so se, overallSe reps = some so ∧ stdSample (valuesOf (reps.map Replicate.dyn) e) = some se ∧
      so = Real.sqrt (((reps.length : ℝ) - 1) / reps.length) * se ∧
      ((∃ r ∈ reps, ∃ r' ∈ reps, r.overall ≠ r'.overall) → so < se) := by
  have hB' : (2 : ℝ) ≤ reps.length := by exact_mod_cast hB
  have h1 : (0 : ℝ) < (reps.length : ℝ) - 1 := by linarith
  have h0 : (0 : ℝ) < (reps.length : ℝ) := by linarith
  have hnn := sumSq_nonneg (reps.map Replicate.overall)
  refine ⟨Real.sqrt (sumSq (reps.map Replicate.overall) / reps.length), Real.sqrt (sumSq (reps.map Replicate.overall) / ((reps.length : ℝ) - 1)),
    ?_, ?_, ?_, ?_⟩
  · unfold overallSe stdPop
    rw [List.length_map, if_pos (by omega)]
  · rw [hsame]
    unfold stdSample
    rw [List.length_map, if_neg (by omega)]
  · rw [← Real.sqrt_mul (by positivity)]
    congr 1
    field_simp
  · rintro ⟨r, hr, r', hr', hne⟩
    have hp := sumSq_pos (reps.map Replicate.overall) _ _ (List.mem_map.2 ⟨r, hr, rfl⟩) (List.mem_map.2 ⟨r', hr', rfl⟩) hne
    refine Real.sqrt_lt_sqrt (by positivity) ?_
    exact div_lt_div_of_pos_left hp h1 (by linarith)

/-- Two replicates of a single-cohort, single-period study. -/
def exReps : List Replicate := [⟨[((2, 2), 1)], [(0, 1)], 1⟩, ⟨[((2, 2), 3)], [(0, 3)], 3⟩]

example : ∃ so se, overallSe exReps = some so ∧ stdSample (valuesOf (exReps.map Replicate.dyn) 0) = some se ∧
      so = Real.sqrt (((exReps.length : ℝ) - 1) / exReps.length) * se ∧
      ((∃ r ∈ exReps, ∃ r' ∈ exReps, r.overall ≠ r'.overall) → so < se) :=
  C228_overall_violated exReps (by simp [exReps]) 0 (by simp [exReps, valuesOf])

example : ∃ r ∈ exReps, ∃ r' ∈ exReps, r.overall ≠ r'.overall :=
  ⟨⟨[((2, 2), 1)], [(0, 1)], 1⟩, by simp [exReps], ⟨[((2, 2), 3)], [(0, 3)], 3⟩, by simp [exReps], by norm_num⟩

example : (0, (2 : ℝ), some (Real.sqrt (sumSq (valuesOf (exReps.map Replicate.dyn) 0) / ((exReps.length : ℝ) - 1)))) ∈ dynSes [(0, 2)] exReps :=
  (C228_event [(0, 2)] exReps (by simp [exReps]) (by intro r hr; simp [exReps] at hr; rcases hr with rfl | rfl <;> simp) 0 2 _).2
    ⟨by simp, by intro r hr; simp [exReps] at hr; rcases hr with rfl | rfl <;> simp, rfl⟩

/-- **C228 (violated).**  The replicates of a slope event study estimate the slope.  They do not: they are set up without dose values, every
cell of every replicate is zero, and the reported standard errors are zero whatever the data, the draws and the number of
replicates. -/
theorem C228_slope_violated (o : PteOpts) (draws : List ((ℤ → ℝ) × List (ℤ × ℤ) × (ℤ × ℤ → ℝ) × List ℤ)) (hB : 2 ≤ draws.length)
    (dyn : List (ℤ × ℝ)) :
    overallSe (draws.map fun d => slopeReplicate o d.1 d.2.1 d.2.2.1 d.2.2.2) = some 0 ∧
    ∀ p ∈ dynSes dyn (draws.map fun d => slopeReplicate o d.1 d.2.1 d.2.2.1 d.2.2.2), p.2.2 = some 0 := by
  have hz : ∀ x, acrtCell (replicateOpts o) x = 0 := fun x => rfl
  have hdyn : ∀ (n : ℤ → ℝ) cells (est : ℤ × ℤ → ℝ) e x, empDyn n cells (fun c => acrtCell (replicateOpts o) (est c)) e = some x → x = 0 := by
    intro n cells est e x h
    unfold empDyn at h
    dsimp only at h
    split_ifs at h
    rw [← Option.some.inj h]
    refine List.sum_eq_zero ?_
    intro y hy
    obtain ⟨c, _, rfl⟩ := List.mem_map.1 hy
    rw [hz, zero_mul]
  have hov : ∀ (n : ℤ → ℝ) cells (est : ℤ × ℤ → ℝ), (empOverall n cells fun c => acrtCell (replicateOpts o) (est c)).getD 0 = 0 := by
    intro n cells est
    unfold empOverall
    dsimp only
    split_ifs
    · rfl
    · rw [Option.getD_some]
      refine List.sum_eq_zero ?_
      intro y hy
      obtain ⟨g, _, rfl⟩ := List.mem_map.1 hy
      have : empGroup cells (fun c => acrtCell (replicateOpts o) (est c)) g = 0 := by
        unfold empGroup
        have : ((postOf cells g).map fun c => acrtCell (replicateOpts o) (est c)).sum = 0 := by
          refine List.sum_eq_zero ?_
          intro z hz'
          obtain ⟨c, _, rfl⟩ := List.mem_map.1 hz'
          exact hz _
        rw [this, zero_div]
      rw [this, zero_mul]
  obtain ⟨reps, hreps⟩ : ∃ l, l = draws.map fun d => slopeReplicate o d.1 d.2.1 d.2.2.1 d.2.2.2 := ⟨_, rfl⟩
  have hlen : reps.length = draws.length := by rw [hreps, List.length_map]
  rw [← hreps]
  constructor
  · unfold overallSe stdPop
    rw [List.length_map, if_pos (by omega), sumSq_const _ 0]
    · simp
    · intro x hx
      obtain ⟨r, hr, rfl⟩ := List.mem_map.1 hx
      rw [hreps] at hr
      obtain ⟨d, _, rfl⟩ := List.mem_map.1 hr
      exact hov _ _ _
  · intro p hp
    unfold dynSes at hp
    obtain ⟨q, hq, rfl⟩ := List.mem_map.1 hp
    obtain ⟨_, hq2⟩ := List.mem_filter.1 hq
    rw [Bool.and_eq_true] at hq2
    have hc := hq2.1
    unfold completeTimes at hc
    rw [decide_eq_true_eq] at hc
    show stdSample _ = some 0
    unfold stdSample
    rw [if_neg (by omega), sumSq_const _ 0]
    · simp
    · intro x hx
      unfold valuesOf at hx
      obtain ⟨v, hv, rfl⟩ := List.mem_map.1 hx
      obtain ⟨t, ht, hvt⟩ := List.mem_flatten.1 (List.mem_filter.1 hv).1
      obtain ⟨r, hr, rfl⟩ := List.mem_map.1 ht
      rw [hreps] at hr
      obtain ⟨d, _, rfl⟩ := List.mem_map.1 hr
      obtain ⟨e, _, he⟩ := List.mem_filterMap.1 hvt
      obtain ⟨y, hy, rfl⟩ := Option.map_eq_some_iff.1 he
      exact hdyn _ _ _ _ _ hy

/-- The hypotheses are met: two replicates with slopes `5` and `7`. -/
example : overallSe ([((fun _ => (1 : ℝ)), [((2 : ℤ), (2 : ℤ))], (fun _ => (5 : ℝ)), [(0 : ℤ)]),
      ((fun _ => (1 : ℝ)), [((2 : ℤ), (2 : ℤ))], (fun _ => (7 : ℝ)), [(0 : ℤ)])].map fun d =>
      slopeReplicate ⟨none, none, some [1]⟩ d.1 d.2.1 d.2.2.1 d.2.2.2) = some 0 :=
  (C228_slope_violated ⟨none, none, some [1]⟩ _ (by simp) []).1

/-- **C228 (violated).**  Every estimated cohort is estimated in the replicates.  It is not when never-treated units are coded infinity (as
`cont_did` codes them): whatever units are drawn, the earliest cohort is not set up for estimation in the replicate, so its cells have no
standard error. -/
theorem C228_first_cohort_violated {ι β : Type*} [DecidableEq ι] (df : List (Row ι ℤ (WithTop ℤ × β))) (g : ℤ)
    (hmin : ∀ r ∈ df, (g : WithTop ℤ) ≤ r.val.1) (drawn : List ι) (ps : List ℤ) (hg : g ∈ ps) :
    recodeTime ps g ∉ setupRecoded ps ((blockSample df drawn).map fun r => r.val.1) := by
  refine C108_first_cohort_violated ps _ g ?_ hg
  intro h hh
  obtain ⟨r, hr, rfl⟩ := List.mem_map.1 hh
  unfold blockSample at hr
  obtain ⟨p, _, hp⟩ := List.mem_flatMap.1 hr
  obtain ⟨q, hq, rfl⟩ := List.mem_map.1 hp
  exact hmin q (List.mem_filter.1 hq).1

/-- Cohorts `2`, `3` and never treated; a replicate drawing every unit estimates cohort `3` only. -/
example : recodeTime [1, 2, 3] 2 ∉ setupRecoded [1, 2, 3] ((blockSample ([⟨7, 1, (((2 : ℤ) : WithTop ℤ), 0)⟩, ⟨8, 1, (((3 : ℤ) : WithTop ℤ), 0)⟩,
    ⟨9, 1, (⊤, 0)⟩] : List (Row ℕ ℤ (WithTop ℤ × ℕ))) [7, 8, 9]).map fun r => r.val.1) :=
  C228_first_cohort_violated _ 2 (by decide) [7, 8, 9] [1, 2, 3] (by decide)

/-- A cell that no replicate estimates has no standard error. -/
theorem C228_missing (atts : List ((ℤ × ℤ) × ℝ)) (reps : List Replicate) (c : ℤ × ℤ) (x : ℝ) (s : Option ℝ)
    (h : (c, x, s) ∈ cellSes atts reps) (hno : ∀ r ∈ reps, c ∉ r.cells.map Prod.fst) : s = none := by
  unfold cellSes at h
  obtain ⟨p, _, he⟩ := List.mem_map.1 h
  simp only [Prod.mk.injEq] at he
  obtain ⟨rfl, _, rfl⟩ := he
  rw [if_pos]
  unfold valuesOf
  rw [List.map_eq_nil_iff, List.filter_eq_nil_iff]
  intro q hq
  obtain ⟨t, ht, hqt⟩ := List.mem_flatten.1 hq
  obtain ⟨r, hr, rfl⟩ := List.mem_map.1 ht
  rw [decide_eq_true_eq]
  intro hqe
  exact hno r hr (List.mem_map.2 ⟨q, hqt, hqe⟩)

example : ((3, 3), (1 : ℝ), (none : Option ℝ)) ∈ cellSes [((3, 3), 1)] exReps := by simp [cellSes, exReps, valuesOf]

/-- **C228 (violated).**  The standard error of a quantile effect is for the quantile asked for.  It is not: replicates always use the
median, so that a zero standard error is reported for every quantile if only the medians do not vary over the replicates. -/
theorem C228_quantile_violated (grid : ℕ → ℝ) (n : ℕ) (samples : List (List (ℝ × (ℝ → ℝ)) × List (ℝ × (ℝ → ℝ)))) (hB : 2 ≤ samples.length)
    (o : PteOpts) (c : ℝ) (hmed : ∀ s ∈ samples, qttOf grid n s.1 s.2 (1 / 2) = c) :
    stdPop (samples.map fun s => qttOf grid n s.1 s.2 ((replicateOpts o).retQuantile.getD 0)) = some 0 := by
  unfold stdPop
  rw [List.length_map, if_pos (by omega), sumSq_const _ c]
  · simp
  · intro x hx
    obtain ⟨s, hs, rfl⟩ := List.mem_map.1 hx
    exact hmed s hs

/-- Two replicates whose median effects are both `0` while the effects at the `0.6` quantile are `0` and `1`. -/
noncomputable def exMixes : List (List (ℝ × (ℝ → ℝ)) × List (ℝ × (ℝ → ℝ))) :=
  [([(1, fun y => y / 4)], [(1, fun y => y / 4)]), ([(1, fun y => y / 4)], [(1, fun y => if y ≤ 3 then min (y / 4) (1 / 2) else 1)])]

example : (∀ s ∈ exMixes, qttOf (fun (i : ℕ) => (i : ℝ)) 5 s.1 s.2 (1 / 2) = 0) ∧
    exMixes.map (fun s => qttOf (fun (i : ℕ) => (i : ℝ)) 5 s.1 s.2 (3 / 5)) = [0, 1] := by
  constructor
  · intro s hs
    simp only [exMixes, List.mem_cons, List.not_mem_nil, or_false] at hs
    rcases hs with rfl | rfl <;> norm_num [qttOf, gridQuantile, bsearch, mixCdf]
  · norm_num [exMixes, qttOf, gridQuantile, bsearch, mixCdf]

/-- **C228.**  With a single replicate no cell and no event time has a standard error (rather than one of zero), if the replicate reports each
cell and each event time at most once. -/
theorem C228_one_replicate (atts : List ((ℤ × ℤ) × ℝ)) (dyn : List (ℤ × ℝ)) (r : Replicate) (hc : (r.cells.map Prod.fst).Nodup)
    (hd : (r.dyn.map Prod.fst).Nodup) :
    (∀ c x s, (c, x, s) ∈ cellSes atts [r] → s = none) ∧ ∀ e x s, (e, x, s) ∈ dynSes dyn [r] → s = none := by
  have key : ∀ {κ : Type} [DecidableEq κ] (t : List (κ × ℝ)) (k : κ), (t.map Prod.fst).Nodup → (valuesOf [t] k).length < 2 := by
    intro κ _ t k h
    unfold valuesOf
    rw [List.flatten_cons, List.flatten_nil, List.append_nil, List.length_map, ← List.countP_eq_length_filter]
    have e1 : t.countP (fun p => decide (p.1 = k)) = (t.map Prod.fst).count k := by
      unfold List.count
      rw [List.countP_map]
      refine List.countP_congr fun p _ => ?_
      simp
    rw [e1]
    have := List.nodup_iff_count_le_one.1 h k
    omega
  have hs : ∀ l : List ℝ, l.length < 2 → stdSample l = none := fun l hl => if_pos hl
  constructor
  · intro c x s h
    unfold cellSes at h
    obtain ⟨p, _, he⟩ := List.mem_map.1 h
    simp only [Prod.mk.injEq] at he
    rw [← he.2.2, hs (valuesOf ([r].map Replicate.cells) p.1) (key r.cells p.1 hc)]
    simp
  · intro e x s h
    unfold dynSes at h
    obtain ⟨p, _, he⟩ := List.mem_map.1 h
    simp only [Prod.mk.injEq] at he
    rw [← he.2.2, hs (valuesOf ([r].map Replicate.dyn) p.1) (key r.dyn p.1 hd)]

/-- A replicate with one cell and one event time. -/
example : (∀ c x s, (c, x, s) ∈ cellSes [((2, 2), 1)] [{ cells := [((2, 2), 3)], dyn := [(0, 3)], overall := 3 }] → s = none) ∧
    ∀ e x s, (e, x, s) ∈ dynSes [(0, 1)] [{ cells := [((2, 2), 3)], dyn := [(0, 3)], overall := 3 }] → s = none :=
  C228_one_replicate _ _ _ (by simp) (by simp)

/-- The event time is reported. -/
example : (0, 1, none) ∈ dynSes [(0, 1)] [{ cells := [((2, 2), 3)], dyn := [(0, 3)], overall := 3 }] := by
  simp [dynSes, completeTimes, valuesOf, stdSample]

end Verif.Cont
