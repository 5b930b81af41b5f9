import Verif.Cont.Model
import Verif.Prep.Tensor
import Mathlib.Data.List.GetD
import Mathlib.Tactic.Linarith

set_option linter.unusedSectionVars false
set_option linter.unusedSimpArgs false

/-!
# Continuous treatment: numbering of periods (C70)
-/

namespace Verif.Cont

open Verif.Panel Verif.Prep

variable {ι K : Type*}

/-! ### What the pipeline does to single rows -/

lemma mem_encode {df : List (Rec ι K)} {r : Rec ι K} (h : r ∈ encode df) :
    ∃ r0 ∈ df, r.id = r0.id ∧ r.t = r0.t ∧ r.val.2 = r0.val.2 ∧ (cohort r = cohort r0 ∨ cohort r = ⊤) ∧ cohort r ≠ 0 := by
  unfold encode at h
  cases hm : (df.map Row.t).max? with
  | none =>
    have : df = [] := by
      rw [List.max?_eq_none_iff] at hm; simpa using hm
    subst this; simp at h
  | some last =>
    simp only [hm, List.mem_map] at h
    obtain ⟨r0, h0, rfl⟩ := h
    refine ⟨r0, h0, rfl, rfl, rfl, ?_, ?_⟩
    · simp only [setCohort, cohort, encodeCohort]
      by_cases h1 : r0.val.1 = 0
      · simp [h1]
      · simp only [h1, if_false]
        split_ifs <;> simp
    · simp only [setCohort, cohort, encodeCohort]
      by_cases h1 : r0.val.1 = 0
      · simp [h1]
      · simp only [h1, if_false]
        split_ifs
        · simp
        · exact h1

lemma periods_encode (df : List (Rec ι K)) : periodsOf (encode df) = periodsOf df := by
  unfold periodsOf encode
  cases (df.map Row.t).max? with
  | none => rfl
  | some last =>
    simp only [List.map_map]
    rfl

lemma mem_earlyGroups {req a : ℤ} {df : List (Rec ι K)} {r : Rec ι K} (h : r ∈ earlyGroups req a df) : r ∈ df := by
  unfold earlyGroups at h
  split at h
  · exact h
  · exact (List.mem_filter.1 h).1

lemma mem_validateDose [Zero K] [DecidableEq K] {df : List (Rec ι K)} {r : Rec ι K} (h : r ∈ validateDose df) :
    ∃ r0 ∈ df, r.id = r0.id ∧ r.t = r0.t ∧ cohort r = cohort r0 ∧ outcome r = outcome r0 := by
  unfold validateDose at h
  obtain ⟨h1, _⟩ := List.mem_filter.1 h
  obtain ⟨r0, h0, rfl⟩ := List.mem_map.1 h1
  refine ⟨r0, h0, ?_⟩
  unfold zeroNever
  split_ifs <;> simp [setDose, cohort, outcome]

lemma mem_balance [DecidableEq ι] {df out : List (Rec ι K)} (h : balance df = some out) {r : Rec ι K} (hr : r ∈ out) :
    r ∈ df := by
  simp only [balance] at h
  split_ifs at h
  obtain rfl := Option.some.inj h
  unfold makeBalanced at hr
  split_ifs at hr with h1
  · exact hr
  · exact (List.mem_filter.1 hr).1

/-- Every row of the preprocessed frame is an input row whose period was renumbered; its cohort is the input cohort or
`never`. -/
lemma mem_contPipeline [LinearOrder ι] [Zero K] [DecidableEq K] {req a : ℤ} {df out : List (Rec ι K)}
    (h : contPipeline req a df = some out) {r : Rec ι K} (hr : r ∈ out) :
    ∃ r0 ∈ df, r.id = r0.id ∧ r.t = recodeTime (periodsOf df) r0.t ∧ outcome r = outcome r0 ∧
      (cohort r = cohort r0 ∨ cohort r = ⊤) ∧ cohort r ≠ 0 := by
  unfold contPipeline at h
  obtain ⟨b, hb, rfl⟩ := Option.map_eq_some_iff.1 h
  have hr' : r ∈ b := (List.perm_insertionSort leTGI b).mem_iff.1 hr
  obtain ⟨r1, h1, e1, e2, e3, e4⟩ := mem_validateDose (mem_balance hb hr')
  have h2 := mem_earlyGroups h1
  unfold recode at h2
  obtain ⟨r2, h3, rfl⟩ := List.mem_map.1 h2
  obtain ⟨r0, h0, f1, f2, f3, f4, f5⟩ := mem_encode h3
  refine ⟨r0, h0, by rw [e1]; exact f1, ?_, ?_, ?_, ?_⟩
  · rw [e2, periods_encode, f2]
  · rw [e4]; exact congrArg Prod.fst f3
  · rw [e3]; exact f4
  · rw [e3]; exact f5

lemma mem_periods {df : List (Rec ι K)} {t : ℤ} : t ∈ periodsOf df ↔ ∃ r ∈ df, r.t = t := by
  unfold periodsOf
  rw [(List.perm_insertionSort _ _).mem_iff, List.mem_dedup, List.mem_map]

lemma recodeTime_range {ps : List ℤ} {t : ℤ} (h : t ∈ ps) : 1 ≤ recodeTime ps t ∧ recodeTime ps t ≤ ps.length := by
  unfold recodeTime
  have := List.idxOf_lt_length_of_mem h
  omega

lemma mem_cellList {u : Bool} {req : ℕ} {a : ℤ} {ps gs : List ℤ} {g t : ℤ} :
    (g, t) ∈ cellList u req a ps gs ↔ t ∈ tList u req ps ∧ g ∈ gs ∧ g ∈ tList u req ps ∧
      ∃ m, minT u (tList u req ps) = some m ∧ m + a ≤ g := by
  unfold cellList gList
  simp only [List.mem_flatMap, List.mem_map, List.mem_filter, Prod.mk.injEq, Bool.and_eq_true, decide_eq_true_eq,
    Option.any_eq_true]
  constructor
  · rintro ⟨t', ht, g', ⟨hg, hg2, m, hm, hle⟩, rfl, rfl⟩
    exact ⟨ht, hg, hg2, m, hm, hle⟩
  · rintro ⟨ht, hg, hg2, m, hm, hle⟩
    exact ⟨t, ht, g, ⟨hg, hg2, m, hm, hle⟩, rfl, rfl⟩

lemma mem_groupsOf {df : List (Rec ι K)} {g : ℤ} : g ∈ groupsOf df ↔ ∃ r ∈ df, cohort r = (g : WithTop ℤ) := by
  unfold groupsOf
  rw [(List.perm_insertionSort _ _).mem_iff, List.mem_dedup]
  simp only [List.mem_filterMap, List.mem_map, exists_exists_and_eq_and]
  constructor
  · rintro ⟨r, hr, h⟩
    refine ⟨r, hr, ?_⟩
    cases hc : cohort r with
    | top => rw [hc] at h; simp [finitePart] at h
    | coe x => rw [hc] at h; simp [finitePart] at h; rw [h]
  · rintro ⟨r, hr, h⟩
    exact ⟨r, hr, by rw [h]; rfl⟩

/-! ### C70 -/

/-- **C70 (periods 1..T).** When the input periods already are `1, …, T`, renumbering changes nothing. -/
theorem C70_identity (T : ℕ) (df : List (Rec ι K)) (hp : periodsOf df = (List.range T).map fun i : ℕ => (i : ℤ) + 1) :
    recode df = df := by
  unfold recode
  conv_rhs => rw [← List.map_id df]
  refine List.map_congr_left fun r hr => ?_
  have hm : r.t ∈ periodsOf df := mem_periods.2 ⟨r, hr, rfl⟩
  rw [hp] at hm ⊢
  obtain ⟨i, hi, e⟩ := List.mem_map.1 hm
  have hi' : i < T := List.mem_range.1 hi
  have : recodeTime ((List.range T).map fun i : ℕ => (i : ℤ) + 1) r.t = r.t := by
    unfold recodeTime
    have hn : ((List.range T).map fun i : ℕ => (i : ℤ) + 1).Nodup :=
      List.Nodup.map (fun a b h => by simpa using h) List.nodup_range
    have := hn.idxOf_getElem i (by simpa using hi')
    simp only [List.getElem_map, List.getElem_range] at this
    rw [← e, this]
  rw [this]
  rfl

/-- **C70 (cells).** A cell is estimated exactly when the cohort occurs, is itself an evaluated period at least
`anticipation` after the first admissible one, and the period is evaluated — all in *renumbered* periods. -/
theorem C70_cells [LinearOrder ι] [Zero K] [DecidableEq K] (univ : Bool) (req : ℕ) (a : ℤ)
    (df out : List (Rec ι K)) (hout : contPipeline (req : ℤ) a df = some out) (g t : ℤ) :
    (∃ cs, contCells univ req a df = some cs ∧ (g, t) ∈ cs) ↔
      t ∈ tList univ req (periodsOf out) ∧ (∃ r ∈ out, cohort r = (g : WithTop ℤ)) ∧
        g ∈ tList univ req (periodsOf out) ∧ ∃ m, minT univ (tList univ req (periodsOf out)) = some m ∧ m + a ≤ g := by
  unfold contCells
  rw [hout]
  simp only [Option.map_some, Option.some.injEq, exists_eq_left']
  unfold cellsOf
  rw [mem_cellList, mem_groupsOf]

lemma tList_subset {u : Bool} {req : ℕ} {ps : List ℤ} {t : ℤ} (h : t ∈ tList u req ps) : t ∈ ps := by
  unfold tList at h
  split_ifs at h
  · exact h
  · exact List.mem_of_mem_drop h

/-- **C70 (violated, general).** If every treated cohort is numbered above the *number* of periods (as calendar years
are), `cont_did` estimates no cell at all, whatever the data. -/
theorem C70_large_labels_violated [LinearOrder ι] [Zero K] [DecidableEq K] (univ : Bool) (req : ℕ) (a : ℤ)
    (df : List (Rec ι K)) (hg : ∀ r ∈ df, cohort r ≠ 0 → (((periodsOf df).length : ℤ) : WithTop ℤ) < cohort r)
    (cs : List (ℤ × ℤ)) (hcs : contCells univ req a df = some cs) : cs = [] := by
  unfold contCells at hcs
  obtain ⟨out, hout, rfl⟩ := Option.map_eq_some_iff.1 hcs
  rw [List.eq_nil_iff_forall_not_mem]
  rintro ⟨g, t⟩ hmem
  unfold cellsOf at hmem
  rw [mem_cellList, mem_groupsOf] at hmem
  obtain ⟨_, ⟨r, hr, hrg⟩, hgt, _⟩ := hmem
  obtain ⟨q, hq, hqt⟩ := mem_periods.1 (tList_subset hgt)
  obtain ⟨q0, hq0, _, hqt0, _⟩ := mem_contPipeline hout hq
  obtain ⟨r0, hr0, _, _, _, hc, hne⟩ := mem_contPipeline hout hr
  have h1 := (recodeTime_range (mem_periods.2 ⟨q0, hq0, rfl⟩)).2
  rw [← hqt0, hqt] at h1
  rcases hc with hc | hc
  · have := hg r0 hr0 (by rw [← hc]; exact hne)
    rw [← hc, hrg] at this
    have := WithTop.coe_lt_coe.1 this
    omega
  · rw [hrg] at hc; simp at hc

/-- Add `c` to the period and to every finite cohort of a row. -/
def relabelRow (c : ℤ) (r : Rec ι K) : Rec ι K := ⟨r.id, r.t + c, (r.val.1 + (c : WithTop ℤ), r.val.2)⟩

/-- **C70 (violated, relabelling).** Take any panel with positive cohorts and add to all periods and cohorts a constant
that is at least the number of periods: whatever cells were estimated before, none is afterwards. -/
theorem C70_relabelling_violated [LinearOrder ι] [Zero K] [DecidableEq K] (univ : Bool) (req : ℕ) (a : ℤ) (c : ℤ)
    (df : List (Rec ι K)) (hpos : ∀ r ∈ df, (0 : WithTop ℤ) < cohort r)
    (hc : ((periodsOf (df.map (relabelRow c))).length : ℤ) ≤ c)
    (cs : List (ℤ × ℤ)) (hcs : contCells univ req a (df.map (relabelRow c)) = some cs) : cs = [] := by
  refine C70_large_labels_violated univ req a _ ?_ cs hcs
  intro r hr _
  obtain ⟨r0, h0, rfl⟩ := List.mem_map.1 hr
  have := hpos r0 h0
  have e : cohort (relabelRow c r0) = cohort r0 + (c : WithTop ℤ) := rfl
  rw [e]
  cases hx : cohort r0 with
  | top => simp
  | coe x =>
    rw [hx] at this
    have hx' : (0:ℤ) < x := by exact_mod_cast this
    rw [← WithTop.coe_add, WithTop.coe_lt_coe]
    omega

lemma recodeTime_consecutive (first : ℤ) (T : ℕ) {t : ℤ}
    (h : t ∈ (List.range T).map fun i : ℕ => first + (i : ℤ)) :
    recodeTime ((List.range T).map fun i : ℕ => first + (i : ℤ)) t = t - (first - 1) := by
  obtain ⟨i, hi, rfl⟩ := List.mem_map.1 h
  have hi' : i < T := List.mem_range.1 hi
  unfold recodeTime
  have hn : ((List.range T).map fun i : ℕ => first + (i : ℤ)).Nodup :=
    List.Nodup.map (fun a b h => by simpa using h) List.nodup_range
  have := hn.idxOf_getElem i (by simpa using hi')
  simp only [List.getElem_map, List.getElem_range] at this
  rw [this]
  omega

/-- **C70 (violated, already treated base).** With consecutive periods starting later than `1 + anticipation`, the base
row of every post-treatment cell `(g, t)` is an observation of a period in which cohort `g` is already treated. -/
theorem C70_treated_base_violated [LinearOrder ι] [Zero K] [DecidableEq K] (univ : Bool) (req : ℕ) (a : ℤ)
    (cg : ControlGroup) (first : ℤ) (T : ℕ) (df out : List (Rec ι K))
    (hp : periodsOf df = (List.range T).map fun i : ℕ => first + (i : ℤ)) (hfirst : 1 + a < first)
    (hout : contPipeline (req : ℤ) a df = some out) (g tp : ℤ) (hpost : g - a ≤ tp) (r : Rec ι K)
    (hr : r ∈ subset univ cg a g tp out) (hb : r.t = basePeriod univ a g tp) :
    ∃ r0 ∈ df, r0.id = r.id ∧ outcome r0 = outcome r ∧ g ≤ r0.t := by
  unfold subset at hr
  obtain ⟨r1, h1, rfl⟩ := List.mem_map.1 hr
  have h2 : r1 ∈ out := (List.mem_filter.1 (List.mem_filter.1 h1).1).1
  obtain ⟨r0, h0, e1, e2, e3, _⟩ := mem_contPipeline hout h2
  refine ⟨r0, h0, e1.symm, e3.symm, ?_⟩
  have hm : r0.t ∈ periodsOf df := mem_periods.2 ⟨r0, h0, rfl⟩
  rw [hp] at hm
  rw [hp, recodeTime_consecutive first T hm] at e2
  have hb' : r1.t = basePeriod univ a g tp := hb
  unfold basePeriod at hb'
  have : ¬ tp < g - a := by omega
  simp only [this, decide_false, Bool.and_false, Bool.false_eq_true, if_false] at hb'
  omega

/-! ### A concrete panel -/

/-- Six periods starting at `p`, unit 1 treated in period `p + 2` with dose 1, unit 2 with dose 2, unit 3 never. -/
def panelAt (p : ℤ) : List (Rec ℕ ℚ) :=
  (List.range 6).flatMap fun i : ℕ =>
    [⟨1, p + i, (((p + 2 : ℤ) : WithTop ℤ), (10 + i, 1))⟩, ⟨2, p + i, (((p + 2 : ℤ) : WithTop ℤ), (20 + i, 2))⟩,
     ⟨3, p + i, (⊤, (5, 0))⟩]

/-- Numbered 1..6 the panel yields the five cells of cohort 3; numbered 2001..2006 it yields none, and numbered 3..8
(cohort 5) the post-treatment cells are those of renumbered periods 5 and 6. -/
theorem C70_example_violated :
    contCells false 1 0 (panelAt 1) = some [(3, 2), (3, 3), (3, 4), (3, 5), (3, 6)] ∧
    contCells false 1 0 (panelAt 2001) = some [] ∧
    contCells false 1 0 (panelAt 3) = some [(5, 2), (5, 3), (5, 4), (5, 5), (5, 6)] := by
  decide +kernel

example : ∃ T : ℕ, periodsOf (panelAt 1) = (List.range T).map fun i : ℕ => (i : ℤ) + 1 := ⟨6, by decide +kernel⟩
example : (∀ r ∈ panelAt 2001, cohort r ≠ 0 → (((periodsOf (panelAt 2001)).length : ℤ) : WithTop ℤ) < cohort r) := by
  decide +kernel
example : (∀ r ∈ panelAt 1, (0 : WithTop ℤ) < cohort r) ∧
    ((periodsOf ((panelAt 1).map (relabelRow 2000))).length : ℤ) ≤ 2000 ∧
    contCells false 1 0 ((panelAt 1).map (relabelRow 2000)) = some [] := by decide +kernel
example : periodsOf (panelAt 3) = (List.range 6).map (fun i : ℕ => (3:ℤ) + (i : ℤ)) ∧
    ((contPipeline 1 0 (panelAt 3)).map fun out =>
      (subset false .notYetTreated 0 5 5 out).map fun r => (r.id, r.t, outcome r)) =
      some [(1, 4, 13), (2, 4, 23), (3, 4, 5), (1, 5, 14), (2, 5, 24), (3, 5, 5)] := by decide +kernel

end Verif.Cont
