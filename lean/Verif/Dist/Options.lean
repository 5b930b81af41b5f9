import Verif.Dist.Driver
import Verif.Dist.Cell
import Verif.Dist.DddCells
import Verif.Report.PValue

/-!
# C277: option values that are refused on one machine and accepted on a cluster

`att_gt` and `ddd` hand Dask and Spark frames over before their option checks (`did/att_gt.py:267-327` before `329-349`,
`didtriple/ddd.py:352-410` before `412-433`); the distributed drivers compare the strings without checking them.
-/

set_option linter.unusedSectionVars false
set_option linter.unusedSimpArgs false

namespace Verif.Dist.Options

open Verif Verif.AttGt Verif.Prep Verif.Dist Verif.Dist.Driver

/-! ## Model -/

/-- The string options of `att_gt` and `ddd`, and the numbers that are checked. -/
structure Opts where
  controlGroup : String
  estMethod : String
  basePeriod : String
  alp : ℚ
  biters : ℤ
  anticip : ℤ

/-- The checks `did/att_gt.py:334-345` (string options given as strings, integers as integers): `none` is a `ValueError`. -/
def attGtChecks (o : Opts) : Option Unit :=
  if ¬ (o.controlGroup = "nevertreated" ∨ o.controlGroup = "notyettreated") then none
  else if ¬ (o.estMethod = "dr" ∨ o.estMethod = "ipw" ∨ o.estMethod = "reg") then none
  else if ¬ (o.basePeriod = "varying" ∨ o.basePeriod = "universal") then none
  else if ¬ (0 < o.alp ∧ o.alp < 1) then none
  else if o.biters < 1 then none
  else if o.anticip < 0 then none
  else some ()

/-- How the distributed drivers read `est_method`: `== "reg"`, `== "ipw"`, otherwise doubly robust (`distributed/_did_partition.py:203-241,
287-312`, `dask/_did_streaming.py:154,303-330`, `dask/_ddd_streaming.py:1007-1030`). -/
def readMethod (s : String) : Method := if s = "reg" then .reg else if s = "ipw" then .ipw else .dr

/-- How they read `control_group`: `== "nevertreated"`, otherwise not-yet-treated (`dask/_did_mp.py:469,643`,
`dask/_did_streaming.py:530,633`, `dask/_ddd_mp.py:463,648,983`). -/
def readControl (s : String) : ControlGroup := if s = "nevertreated" then .neverTreated else .notYetTreated

/-- `tfac`, `dask/_did_mp.py:186`, `spark/_did_mp.py:217`. -/
def tfac (bp : String) : ℕ := if bp = "varying" then 1 else 0

/-- The loop body of the distributed `att_gt` on the string as given, `dask/_did_mp.py:206-231`, `spark/_did_mp.py:237-262`. -/
def specOfS (bp : String) (tlist : List ℤ) (anticip g now t : ℤ) : Spec :=
  match (if bp = "universal" then preBefore tlist (g - anticip) else some now) with
  | none => ⟨g, t, none, false, .skip⟩
  | some p =>
    let post := decide (g ≤ t)
    match (if post = true ∧ bp = "varying" then preBefore tlist (g - anticip) else some p) with
    | none => ⟨g, t, none, post, .skip⟩
    | some p => if bp = "universal" ∧ p = t then ⟨g, t, some p, false, .zero⟩ else ⟨g, t, some p, post, .compute⟩

/-- `cell_specs` on the string as given, `dask/_did_mp.py:203-231`. -/
def cellSpecsS (bp : String) (tlist : List ℤ) (anticip : ℤ) (gs : List ℤ) : List Spec :=
  gs.flatMap fun g => (List.range (tlist.length - tfac bp)).map fun i =>
    specOfS bp tlist anticip g (tlist.getD i 0) (tlist.getD (i + tfac bp) 0)

/-- Outcome regression of a panel cell, `dask/_did_streaming.py:157-161`, `distributed/_did_partition.py:165-180`,
`dask/_regression.py:172-176`: any matrix `M` in place of the inverted Gram matrix, times the weighted cross products of the comparison
units with their outcome changes. -/
def orBeta {κ K : Type*} [Fintype κ] [Field K] (M : κ → κ → K) (parts : List (List (PRow κ K))) : κ → K :=
  mulV M fun k => ((parts.flatten.filter fun r => !r.d).map fun r => r.x k * r.w * r.dy).sum

/-- Rows of a panel cell: post outcome of period `t`, base outcome of period `pret`, for the units `us` of each partition
(`dask/_did_mp.py:524-540`, `_did_streaming.py:648-652`). -/
def cellRows {υ κ K : Type*} (y : υ → ℤ → K) (x : υ → κ → K) (d : υ → Bool) (w : υ → K) (t pret : ℤ) (parts : List (List υ)) :
    List (List (PRow κ K)) :=
  parts.map fun p => p.map fun u => ⟨x u, d u, y u t, y u pret, w u⟩

/-! ## Specification -/

/-- Spec: the option values the documentation allows (`did/att_gt.py:128-170`). -/
def Documented (o : Opts) : Prop :=
  o.controlGroup ∈ ["nevertreated", "notyettreated"] ∧ o.estMethod ∈ ["dr", "ipw", "reg"] ∧ o.basePeriod ∈ ["varying", "universal"] ∧
    0 < o.alp ∧ o.alp < 1 ∧ 1 ≤ o.biters ∧ 0 ≤ o.anticip

/-- Spec: a documented base period. -/
def baseOf (s : String) : BasePeriod := if s = "universal" then .universal else .varying

/-! ## Proofs -/

/-- **C277 (single machine).** On one machine exactly the documented option values are accepted. -/
theorem C277_local_iff (o : Opts) : (attGtChecks o).isSome ↔ Documented o := by
  have step : ∀ (P Q : Prop) [Decidable P] (r : Option Unit), (r.isSome ↔ Q) → ((if ¬ P then none else r).isSome ↔ (P ∧ Q)) := by
    intro P Q _ r h
    by_cases hP : P
    · rw [if_neg (not_not.2 hP), h]; exact (and_iff_right hP).symm
    · rw [if_pos hP]; simp [hP]
  have last : (if o.anticip < 0 then none else some () : Option Unit).isSome ↔ 0 ≤ o.anticip := by
    split_ifs with h <;> simp <;> omega
  have b : (if o.biters < 1 then none else if o.anticip < 0 then none else some () : Option Unit).isSome ↔
      (1 ≤ o.biters ∧ 0 ≤ o.anticip) := by
    rw [← last]
    split_ifs with h <;> simp <;> omega
  unfold attGtChecks Documented
  simp only [List.mem_cons, List.not_mem_nil, or_false]
  refine step _ _ _ (step _ _ _ (step _ _ _ ?_))
  refine (step _ _ _ b).trans ?_
  exact and_assoc

example : Documented ⟨"nevertreated", "dr", "varying", 1/20, 1000, 0⟩ ∧ ¬ Documented ⟨"nevertreated", "dr", "Varying", 1/20, 1000, 0⟩ := by
  unfold Documented
  constructor
  · norm_num
  · simp

/-- **C277 (documented values).** With documented values the distributed `att_gt` enumerates the cells of C123 for that base period,
and reads each method and comparison group as named. -/
theorem C277_documented (o : Opts) (h : Documented o) (tlist : List ℤ) (gs : List ℤ) :
    cellSpecsS o.basePeriod tlist o.anticip gs = cellSpecs (baseOf o.basePeriod) tlist o.anticip gs ∧
    (readControl o.controlGroup = .neverTreated ↔ o.controlGroup = "nevertreated") ∧
    (readControl o.controlGroup = .notYetTreated ↔ o.controlGroup = "notyettreated") ∧
    (readMethod o.estMethod = .dr ↔ o.estMethod = "dr") ∧ (readMethod o.estMethod = .reg ↔ o.estMethod = "reg") ∧
    (readMethod o.estMethod = .ipw ↔ o.estMethod = "ipw") := by
  obtain ⟨hc, hm, hb, -⟩ := h
  simp only [List.mem_cons, List.not_mem_nil, or_false] at hc hm hb
  refine ⟨?_, ?_⟩
  · have ht : tfac o.basePeriod = timeFactor (baseOf o.basePeriod) := by
      rcases hb with h | h <;> rw [h] <;> decide
    have hs : ∀ g now t, specOfS o.basePeriod tlist o.anticip g now t = specOf (baseOf o.basePeriod) tlist o.anticip g now t := by
      intro g now t
      rcases hb with h | h
      · rw [h]
        simp only [specOfS, specOf, baseOf, show ("varying" = "universal") = False by decide, if_false, false_and, and_true]
        by_cases hg : g ≤ t
        · simp only [hg, decide_true, if_true]
          cases preBefore tlist (g - o.anticip) <;> rfl
        · simp [hg]
      · rw [h]
        simp only [specOfS, specOf, baseOf, show ("universal" = "varying") = False by decide, if_true, true_and, and_false, if_false]
        cases preBefore tlist (g - o.anticip) <;> rfl
    unfold cellSpecsS cellSpecs
    rw [ht]
    simp only [hs]
  · rcases hc with h | h <;> rcases hm with h' | h' | h' <;> rw [h, h'] <;> decide

example : cellSpecsS "varying" [1, 2, 3] 0 [3] = [⟨3, 2, some 1, false, .compute⟩, ⟨3, 3, some 2, true, .compute⟩] := by decide +kernel

/-- **C277 (violated: base period).** With any other base period, which one machine refuses, the distributed `att_gt` computes a cell for
every cohort and every period, and the base period of each cell is the period itself. -/
theorem C277_base_violated (bp : String) (hv : bp ≠ "varying") (hu : bp ≠ "universal") (o : Opts) (hb : o.basePeriod = bp)
    (tlist : List ℤ) (anticip : ℤ) (gs : List ℤ) :
    attGtChecks o = none ∧
    cellSpecsS bp tlist anticip gs = gs.flatMap fun g => tlist.map fun t => ⟨g, t, some t, decide (g ≤ t), .compute⟩ := by
  constructor
  · by_contra hne
    have : (attGtChecks o).isSome := Option.isSome_iff_ne_none.2 hne
    rw [C277_local_iff] at this
    have := this.2.2.1
    simp only [List.mem_cons, List.not_mem_nil, or_false, hb] at this
    rcases this with h | h
    · exact hv h
    · exact hu h
  · unfold cellSpecsS
    have : ∀ g now t, specOfS bp tlist anticip g now t = ⟨g, t, some now, decide (g ≤ t), .compute⟩ := by
      intro g now t
      simp [specOfS, hv, hu]
    have ht : tfac bp = 0 := by simp [tfac, hv]
    simp only [this, ht, Nat.add_zero, Nat.sub_zero]
    congr 1
    funext g
    apply List.ext_getElem
    · simp
    · intro i h1 h2
      have hi : i < tlist.length := by simpa using h1
      simp [List.getElem_map, List.getD_eq_getElem?_getD, List.getElem?_eq_getElem hi]

example : ("Varying" ≠ "varying") ∧ ("Varying" ≠ "universal") ∧
    cellSpecsS "Varying" [1, 2] 0 [2] = [⟨2, 1, some 1, false, .compute⟩, ⟨2, 2, some 2, true, .compute⟩] := by decide +kernel

section Zero
variable {υ κ K : Type*} [Fintype κ] [Field K] [LinearOrder K] [IsStrictOrderedRing K]

lemma orBeta_same (M : κ → κ → K) (parts : List (List (PRow κ K))) (h : ∀ r ∈ parts.flatten, r.dy = 0) : orBeta M parts = 0 := by
  funext a
  unfold orBeta mulV
  rw [Pi.zero_apply]
  apply Finset.sum_eq_zero
  intro b _
  dsimp only
  rw [List.sum_eq_zero, mul_zero]
  intro v hv
  obtain ⟨r, hr, rfl⟩ := List.mem_map.1 hv
  rw [h r (List.mem_filter.1 hr).1, mul_zero]

/-- **C277 (violated: every estimate is zero).** A panel cell whose base period is the period itself has, for every method, all outcomes,
weights, covariates, propensity scores and partitionings, estimate 0 and influence values 0, whenever it returns. -/
theorem C277_zero_violated (m : Method) (inv : (κ → κ → K) → κ → κ → K) (M : κ → κ → K) (level : K) (ps : (κ → K) → K)
    (y : υ → ℤ → K) (x : υ → κ → K) (d : υ → Bool) (w : υ → K) (t : ℤ) (parts : List (List υ)) (hne : parts.flatten ≠ []) :
    cellDist m inv level ps (orBeta M (cellRows y x d w t t parts)) (cellRows y x d w t t parts) =
      some (0, parts.flatten.map fun _ => 0) := by
  set R := cellRows y x d w t t parts with hR
  have hflat : R.flatten = parts.flatten.map fun u => (⟨x u, d u, y u t, y u t, w u⟩ : PRow κ K) := by
    rw [hR, cellRows, ← List.map_flatten]
  have hdy : ∀ r ∈ R.flatten, r.dy = 0 := by
    intro r hr
    rw [hflat] at hr
    obtain ⟨u, -, rfl⟩ := List.mem_map.1 hr
    exact sub_self _
  rw [orBeta_same M R hdy]
  have hout : ∀ q : κ → K, outM m (0 : κ → K) q = 0 := by
    intro q
    unfold outM eta
    split_ifs
    · rfl
    · simp
  have hres : ∀ r ∈ R.flatten, r.dy - outM m (0 : κ → K) r.x = 0 := fun r hr => by rw [hdy r hr, hout, sub_zero]
  have hRne : R.flatten ≠ [] := by rw [hflat]; simpa using hne
  have z : ∀ f : PRow κ K → K, (R.flatten.map fun r => f r * (r.dy - outM m (0 : κ → K) r.x)).sum = 0 := by
    intro f
    apply List.sum_eq_zero
    intro v hv
    obtain ⟨r, hr, rfl⟩ := List.mem_map.1 hv
    rw [hres r hr, mul_zero]
  have z' : ∀ k, (R.flatten.map fun r => wC m level ps r * (r.dy - outM m (0 : κ → K) r.x) * r.x k).sum = 0 := by
    intro k
    apply List.sum_eq_zero
    intro v hv
    obtain ⟨r, hr, rfl⟩ := List.mem_map.1 hv
    rw [hres r hr, mul_zero, zero_mul]
  unfold cellDist cellGlobal
  rw [agg_eq]
  unfold partStats finalize
  rw [if_neg hRne]
  simp only [Option.bind_some, List.length_eq_zero_iff, hRne, if_false, Option.map_some, Option.some.injEq, Prod.mk.injEq, z, z', zero_div,
    ite_self, sub_self, true_and]
  rw [List.flatMap_def, ← List.map_flatten]
  have e : parts.flatten.map (fun _ => (0 : K)) = R.flatten.map fun _ => (0 : K) := by
    rw [hflat, List.map_map]; rfl
  rw [e]
  apply List.map_congr_left
  intro r hr
  have h0 : ∀ A : κ → κ → K, mulV A (fun _ => (0 : K)) = fun _ => 0 := by
    intro A; funext a; unfold mulV; simp
  unfold rowIF
  simp only [hres r hr, mul_zero, sub_zero, zero_mul, zero_sub, neg_zero, h0, ite_self, Finset.sum_const_zero, add_zero, zero_div, sub_self]

end Zero

/-- Three units in two partitions, one treated, whose outcomes change over time. -/
example : cellDist .dr (fun A a b => 1 / A a b) 1 (fun _ => 1 / 2)
    (orBeta (fun _ _ => (5 : ℚ)) (cellRows (fun (u : ℕ) t => (u : ℚ) + t * t) (fun _ (_ : Fin 1) => 1) (fun u => u == 0) (fun _ => 1) 3 3 [[0, 1], [2]]))
    (cellRows (fun (u : ℕ) t => (u : ℚ) + t * t) (fun _ (_ : Fin 1) => 1) (fun u => u == 0) (fun _ => 1) 3 3 [[0, 1], [2]]) = some (0, [0, 0, 0]) :=
  C277_zero_violated _ _ _ _ _ _ _ _ _ _ _ (by simp)

/-- **C277 (violated: method and comparison group).** Any other name of a method, refused on one machine, runs the doubly robust
estimator on a cluster; any other name of a comparison group the not-yet-treated one. -/
theorem C277_names_violated (o : Opts) :
    (o.estMethod ∉ ["dr", "ipw", "reg"] → attGtChecks o = none ∧ readMethod o.estMethod = .dr) ∧
    (o.controlGroup ∉ ["nevertreated", "notyettreated"] → attGtChecks o = none ∧ readControl o.controlGroup = .notYetTreated) := by
  have hno : ¬ Documented o → attGtChecks o = none := by
    intro h
    rw [← C277_local_iff] at h
    simpa using h
  constructor
  · intro h
    refine ⟨hno fun hd => h hd.2.1, ?_⟩
    simp only [List.mem_cons, List.not_mem_nil, or_false, not_or] at h
    simp [readMethod, h.2.1, h.2.2]
  · intro h
    refine ⟨hno fun hd => h hd.1, ?_⟩
    simp only [List.mem_cons, List.not_mem_nil, or_false, not_or] at h
    simp [readControl, h.1]

example : readMethod "IPW" = .dr ∧ readControl "NeverTreated" = .notYetTreated ∧ "IPW" ∉ ["dr", "ipw", "reg"] := by decide

/-- The interval of an estimate without bootstrap, `dask/_did_mp.py:370-372`, `spark/_did_mp.py:401-403`, as displayed by
`did/format.py:146-147` (lower, upper). -/
noncomputable def intervalD (alp att se : ℝ) : ℝ × ℝ := (att - Report.zcrit alp * se, att + Report.zcrit alp * se)

/-- **C277 (violated: level).** A level between 1 and 2, refused on one machine, is accepted on a cluster, where the lower end of every
interval exceeds the upper end; for a documented level it never does. -/
theorem C277_level_violated (o : Opts) (att se : ℝ) (hs : 0 < se) :
    (1 < o.alp → o.alp < 2 → attGtChecks o = none ∧ (intervalD o.alp att se).2 < (intervalD o.alp att se).1) ∧
    (Documented o → (intervalD o.alp att se).1 < (intervalD o.alp att se).2) := by
  constructor
  · intro h1 h2
    have h1' : (1 : ℝ) < (o.alp : ℝ) := by exact_mod_cast h1
    have h2' : (o.alp : ℝ) < 2 := by exact_mod_cast h2
    constructor
    · by_contra hne
      have : (attGtChecks o).isSome := Option.isSome_iff_ne_none.2 hne
      rw [C277_local_iff] at this
      have := this.2.2.2.2.1
      linarith
    · have hz : Report.zcrit o.alp < 0 := by
        unfold Report.zcrit
        rw [Honest.ppf_lt _ _ (by linarith) (by linarith), Honest.phi_zero]
        linarith
      unfold intervalD
      dsimp only
      nlinarith
  · intro hd
    have h0 : (0 : ℝ) < (o.alp : ℝ) := by exact_mod_cast hd.2.2.2.1
    have h1 : (o.alp : ℝ) < 1 := by exact_mod_cast hd.2.2.2.2.1
    have hz := Report.zcrit_pos _ h0 h1
    unfold intervalD
    dsimp only
    nlinarith

example : ∃ o : Opts, 1 < o.alp ∧ o.alp < 2 := ⟨⟨"nevertreated", "dr", "varying", 95/50, 1000, 0⟩, by norm_num, by norm_num⟩

end Verif.Dist.Options
