import Verif.Report.PValue
import Verif.Boot.QuantModel
import Mathlib.Data.List.Sort
import Mathlib.Data.List.Perm.Basic
import Mathlib.Algebra.Order.Floor.Ring
import Mathlib.Algebra.Order.Monoid.WithTop
import Mathlib.Data.Rat.Floor
import Mathlib.Data.Finset.Card
import Mathlib.Algebra.BigOperators.Group.Finset.Basic

set_option linter.unusedSectionVars false
set_option linter.unusedSimpArgs false

/-!
# Printed triple-difference results (C266)

`didtriple/format.py` and the `args` dictionaries of `didtriple/estimators` and `didtriple/compute_agg_ddd.py`.
-/

namespace Verif.Report.Triple

open Verif.Report Verif.Honest

/-! ## Model -/

/-- The entries of a result's `args` that are printed; `none` if the key is missing. -/
structure Args where
  yname : Option String
  pname : Option String
  alpha : Option ℝ
  boot : Option Bool
  boot_type : Option String
  biters : Option ℕ
  cband : Option Bool

/-- The options of `ddd()` that are printed, `ddd.py:16-41`. -/
structure Opts where
  yname : String
  pname : String
  alpha : ℝ
  boot : Bool
  boot_type : String
  biters : ℕ

/-- `args` of the two-period estimators, `ddd_panel.py:270-277`, `ddd_rc.py:267-275`: they are given arrays and do not know column names. -/
def twoArgs (o : Opts) : Args := ⟨none, none, some o.alpha, some o.boot, some o.boot_type, some o.biters, none⟩

/-- `args` of the group-time estimators, `ddd_mp.py:325-337`, `ddd_mp_rc.py:313-326`, called by `ddd()` with `cband=False`, `ddd.py:467, 487`. -/
def mpArgs (o : Opts) : Args :=
  ⟨some o.yname, some o.pname, some o.alpha, some o.boot, none, if o.boot then some o.biters else none, if o.boot then some false else none⟩

/-- The variable lines: `args.get("yname", "y")` and `args.get("pname", "partition")`, `format.py:114-118, 171-175, 246-250, 313-317,
425-429`. -/
def names (a : Args) : String × String := (a.yname.getD "y", a.pname.getD "partition")

/-- `none` is the line " Analytical standard errors". -/
abbrev SeLine := Option (String × ℕ)

/-- `_inference_lines`, `format.py:50-61` (two-period results). -/
def twoSe (a : Args) : SeLine :=
  if a.boot.getD false then some (a.boot_type.getD "multiplier", a.biters.getD 1000) else none

/-- `format.py:198-200, 334-336` (group-time results): a fixed line. -/
def mpSe (_ : Args) : SeLine := none

/-- The printed level of a result, `format.py:91-92, 150-151, 223-224, 292-293, 366-367`. -/
noncomputable def level (a : Args) : ℕ := levelOf (a.alpha.getD (5 / 100))

/-- `args` of `agg_ddd` on the result of `ddd()`, `compute_agg_ddd.py:86-96`: the options of the aggregation and the names of the result. -/
def aggArgs (src : Args) (boot cband : Bool) (biters : ℕ) (alpha : ℝ) : Args :=
  ⟨src.yname, src.pname, some alpha, some boot, none, some biters, some cband⟩

/-- The critical value of the rows, `compute_agg_ddd.py:509-541`; `cv` is the bootstrap value, `none` if it is not finite. -/
noncomputable def aggCrit (boot cband : Bool) (alpha : ℝ) (cv : Option ℝ) : ℝ :=
  if boot then Boot.critAggDdd cband (zcrit alpha) cv else zcrit alpha

/-- What is printed of an aggregation, `format.py:366-417`: level, whether the rows are labelled simultaneous, the interval of a row and
the overall interval.  `agg_ddd` refuses `cband` without `boot` (`compute_agg_ddd.py:74-75`). -/
structure AggPrint where
  level : ℕ
  simultaneous : Bool
  row : ℝ → ℝ → ℝ × ℝ
  overall : ℝ → ℝ → ℝ × ℝ

/-- `agg_ddd` followed by `print`. -/
noncomputable def aggPrint (src : Args) (boot cband : Bool) (biters : ℕ) (alpha : ℝ) (cv : Option ℝ) : Option AggPrint :=
  if cband && !boot then none
  else
    let a := aggArgs src boot cband biters alpha
    some ⟨level a, a.boot.getD false && a.cband.getD false, fun att se => rowInterval (aggCrit boot cband alpha cv) att se,
      fun att se => rowInterval (zcrit (a.alpha.getD (5 / 100))) att se⟩

/-- Codes of the group column: a number, or infinity (`⊤`) for never-treated units. -/
abbrev Code := WithTop ℚ

/-- A whole number as code. -/
def codeOf (k : ℤ) : Code := ((k : ℚ) : Code)

/-- `int(g)`: towards zero; infinity raises `OverflowError`. -/
def pyInt : Code → Option ℤ
  | none => none
  | some q => some (if 0 ≤ q then ⌊q⌋ else ⌈q⌉)

/-- A line of the group table, `format.py:187-192`: `none` as label is "Units never enabling treatment", `some g` "Units enabling treatment at
period g". -/
def groupLine (ug : List Code) (g : Code) : Option (Option ℤ × ℕ) :=
  if g = 0 then some (none, ug.count g)
  else (pyInt g).map fun k => (some k, ug.count g)

/-- The group table of a group-time panel result, `format.py:184-192`: one line per distinct code in increasing order; `none` if printing
raises. -/
def groupTable (ug : List Code) : Option (List (Option ℤ × ℕ)) := (ug.dedup.mergeSort (· ≤ ·)).mapM (groupLine ug)

/-! ## C266: names, standard errors, level -/

/-- **C266.**  A group-time result prints the names of the user's columns and the level asked for; a two-period result prints the bootstrap
exactly if there was one, with kind and number of replications; an aggregation prints the level given to `agg_ddd` and its overall
interval covers with that probability if the estimate is normal with the printed standard error. -/
theorem C266_truthful (o : Opts) :
    names (mpArgs o) = (o.yname, o.pname) ∧ level (mpArgs o) = levelOf o.alpha ∧ level (twoArgs o) = levelOf o.alpha ∧
    twoSe (twoArgs o) = (if o.boot = true then some (o.boot_type, o.biters) else none) ∧
    ∀ (boot cband : Bool) (biters : ℕ) (alpha : ℝ) (cv : Option ℝ) (p : AggPrint), 0 < alpha → alpha < 1 →
      aggPrint (mpArgs o) boot cband biters alpha cv = some p →
      p.level = levelOf alpha ∧ (∀ θ s, 0 < s → coverage θ s (fun x => p.overall x s) = 1 - alpha) ∧
      (cband = false → ∀ θ s, 0 < s → coverage θ s (fun x => p.row x s) = 1 - alpha) ∧
      (∀ c, p.simultaneous = true → cv = some c → zcrit alpha ≤ c → ∀ x s, p.row x s = rowInterval c x s) := by
  refine ⟨rfl, rfl, rfl, ?_, ?_⟩
  · cases h : o.boot <;> simp [twoSe, twoArgs, h]
  · intro boot cband biters alpha cv p h0 h1 h
    unfold aggPrint at h
    split_ifs at h with hc
    obtain rfl := Option.some.inj h
    refine ⟨rfl, ?_, ?_, ?_⟩
    · intro θ s hs
      exact coverage_z θ s alpha h0 h1 hs
    · rintro rfl θ s hs
      have : aggCrit boot false alpha cv = zcrit alpha := by cases boot <;> simp [aggCrit, Boot.critAggDdd]
      show coverage θ s (fun x => rowInterval (aggCrit boot false alpha cv) x s) = _
      rw [this]
      exact coverage_z θ s alpha h0 h1 hs
    · rintro c hsim rfl hz x s
      have hb : (boot && cband) = true := hsim
      show rowInterval (aggCrit boot cband alpha (some c)) x s = _
      rw [Bool.and_eq_true] at hb
      simp [aggCrit, Boot.critAggDdd, hb.1, hb.2, not_lt.2 hz]

example : ∃ p, aggPrint (mpArgs ⟨"wage", "eligible", 1 / 10, true, "multiplier", 999⟩) true true 999 (1 / 100) (some 3) = some p ∧
    p.level = levelOf (1 / 100) ∧ coverage 2 1 (fun x => p.overall x 1) = 1 - 1 / 100 := by
  refine ⟨_, rfl, ?_⟩
  have h := (C266_truthful ⟨"wage", "eligible", 1 / 10, true, "multiplier", 999⟩).2.2.2.2 true true 999 (1 / 100) (some 3) _ (by norm_num) (by norm_num) rfl
  exact ⟨h.1, h.2.1 2 1 one_pos⟩

/-- **C266 (violated).**  A two-period result names the outcome `y` and the eligibility variable `partition` whatever the user's columns are
called; a group-time result states analytical standard errors also if they are from the bootstrap; and rows of an aggregation are labelled
as a simultaneous band also if the bootstrap gave no usable critical value and the intervals are pointwise ones. -/
theorem C266_labels_violated (o : Opts) :
    (names (twoArgs o) = (o.yname, o.pname) ↔ o.yname = "y" ∧ o.pname = "partition") ∧
    (mpSe (mpArgs o) = none ∧ (o.boot = true → (mpArgs o).boot = some true)) ∧
    ∀ (biters : ℕ) (alpha : ℝ) (cv : Option ℝ), 0 < alpha → alpha < 1 → (∀ c, cv = some c → c < zcrit alpha) →
      ∃ p, aggPrint (mpArgs o) true true biters alpha cv = some p ∧ p.simultaneous = true ∧
        ∀ θ s, 0 < s → coverage θ s (fun x => p.row x s) = 1 - alpha := by
  refine ⟨?_, ⟨rfl, fun h => by simp [mpArgs, h]⟩, ?_⟩
  · show ("y", "partition") = (o.yname, o.pname) ↔ _
    rw [Prod.mk.injEq]
    exact ⟨fun h => ⟨h.1.symm, h.2.symm⟩, fun h => ⟨h.1.symm, h.2.symm⟩⟩
  · intro biters alpha cv h0 h1 hcv
    refine ⟨_, rfl, rfl, ?_⟩
    intro θ s hs
    have : aggCrit true true alpha cv = zcrit alpha := by
      cases cv with
      | none => rfl
      | some c => simp [aggCrit, Boot.critAggDdd, hcv c rfl]
    show coverage θ s (fun x => rowInterval (aggCrit true true alpha cv) x s) = _
    rw [this]
    exact coverage_z θ s alpha h0 h1 hs

example : names (twoArgs ⟨"wage", "eligible", 5 / 100, false, "multiplier", 1000⟩) ≠ ("wage", "eligible") := by
  intro h
  have := (C266_labels_violated ⟨"wage", "eligible", 5 / 100, false, "multiplier", 1000⟩).1.1 h
  exact absurd this.1 (by decide)

/-! ## C266: the group table -/

lemma mapM_some {α β : Type*} (f : α → Option β) : ∀ (l : List α) (r : List β), l.mapM f = some r ↔ l.map f = r.map some
  | [], r => by cases r <;> simp
  | a :: l, r => by
    rw [List.mapM_cons]
    cases h : f a with
    | none => cases r <;> simp [h]
    | some b =>
      cases r with
      | nil => cases hl : l.mapM f <;> simp [h, hl]
      | cons c r =>
        have ih := mapM_some f l r
        cases hl : l.mapM f with
        | none => rw [hl] at ih; simp [h, hl] ; intro _ hh; exact absurd (ih.2 hh) (by simp)
        | some r' =>
          rw [hl] at ih
          simp only [h, hl, Option.pure_def, Option.bind_eq_bind, Option.bind_some, Option.some.injEq, List.cons.injEq, List.map_cons]
          rw [← ih, Option.some.injEq]

lemma mapM_isSome {α β : Type*} (f : α → Option β) (l : List α) : (l.mapM f).isSome ↔ ∀ a ∈ l, (f a).isSome := by
  induction l with
  | nil => simp
  | cons a l ih =>
    rw [List.mapM_cons, List.forall_mem_cons, ← ih]
    cases h : f a with
    | none => simp
    | some b => cases hl : l.mapM f <;> simp

lemma count_sum (ug : List Code) : (ug.dedup.map fun g => ug.count g).sum = ug.length := by
  have h : (ug.dedup.map fun g => ug.count g).sum = ∑ g ∈ ug.toFinset, ug.count g := by
    rw [Finset.sum, List.toFinset_val, Multiset.map_coe, Multiset.sum_coe]
  rw [h]
  have := Multiset.toFinset_sum_count_eq (ug : Multiset Code)
  simpa using this

/-- **C266.**  If every unit has a whole number as code, printing works; the labels are distinct; the line of period `g` counts the units with
code `g`, the never-treated line the units with code 0; and the counts add up to the number of units. -/
theorem C266_groups (ks : List ℤ) :
    ∃ t, groupTable (ks.map codeOf) = some t ∧ (t.map Prod.fst).Nodup ∧ (t.map Prod.snd).sum = ks.length ∧
      (∀ g n, (some g, n) ∈ t ↔ g ≠ 0 ∧ g ∈ ks ∧ n = ks.count g) ∧ (∀ n, (none, n) ∈ t ↔ 0 ∈ ks ∧ n = ks.count 0) := by
  obtain ⟨ug, hug⟩ : ∃ u : List Code, u = ks.map codeOf := ⟨_, rfl⟩
  rw [← hug]
  have hinj : Function.Injective codeOf := fun a b h => by
    have : (a : ℚ) = b := WithTop.coe_injective h
    exact_mod_cast this
  have hcount : ∀ k : ℤ, ug.count (codeOf k) = ks.count k := fun k => by
    rw [hug]; exact List.count_map_of_injective ks _ hinj k
  have h00 : codeOf 0 = 0 := by unfold codeOf; rw [Int.cast_zero]; rfl
  have hline : ∀ k : ℤ, groupLine ug (codeOf k) = some (if k = 0 then none else some k, ks.count k) := fun k => by
    unfold groupLine
    by_cases hk : k = 0
    · subst hk
      rw [if_pos h00, hcount, if_pos rfl]
    · have : codeOf k ≠ 0 := fun h => hk (hinj (h.trans h00.symm))
      rw [if_neg this, hcount, if_neg hk]
      show (some (if (0 : ℚ) ≤ k then ⌊(k : ℚ)⌋ else ⌈(k : ℚ)⌉)).map _ = _
      rw [Int.floor_intCast, Int.ceil_intCast, ite_self]
      rfl
  have hperm := List.mergeSort_perm ug.dedup (fun a b => decide (a ≤ b))
  obtain ⟨ss, hss⟩ : ∃ s, s = ug.dedup.mergeSort (fun a b => decide (a ≤ b)) := ⟨_, rfl⟩
  have hmem : ∀ g, g ∈ ss ↔ ∃ k ∈ ks, codeOf k = g := fun g => by
    rw [hss, hperm.mem_iff, List.mem_dedup, hug, List.mem_map]
  have hnd : ss.Nodup := by rw [hss]; exact hperm.nodup_iff.2 (List.nodup_dedup _)
  have hsome : (ss.mapM (groupLine ug)).isSome := by
    rw [mapM_isSome]
    intro g hg
    obtain ⟨k, _, rfl⟩ := (hmem g).1 hg
    rw [hline]; rfl
  obtain ⟨t, ht⟩ := Option.isSome_iff_exists.1 hsome
  have htab : groupTable ug = some t := by
    show (ug.dedup.mergeSort (fun a b => decide (a ≤ b))).mapM (groupLine ug) = some t
    rw [← hss]; exact ht
  have hmap := (mapM_some _ _ _).1 ht
  have hm : ∀ p, p ∈ t ↔ ∃ k ∈ ks, p = (if k = 0 then none else some k, ks.count k) := fun p => by
    have h1 : p ∈ t ↔ some p ∈ t.map some := by simp
    rw [h1, ← hmap, List.mem_map]
    constructor
    · rintro ⟨g, hg, hgp⟩
      obtain ⟨k, hk, rfl⟩ := (hmem g).1 hg
      rw [hline, Option.some.injEq] at hgp
      exact ⟨k, hk, hgp.symm⟩
    · rintro ⟨k, hk, rfl⟩
      exact ⟨codeOf k, (hmem _).2 ⟨k, hk, rfl⟩, hline k⟩
  refine ⟨t, htab, ?_, ?_, ?_, ?_⟩
  · have h2 : (t.map Prod.fst).map some = ss.map fun g => (groupLine ug g).map Prod.fst := by
      rw [List.map_map]
      have : (t.map some).map (Option.map Prod.fst) = (ss.map (groupLine ug)).map (Option.map Prod.fst) := by rw [hmap]
      simpa [List.map_map, Function.comp_def] using this
    refine List.Nodup.of_map some ?_
    rw [h2]
    refine List.Nodup.map_on ?_ hnd
    intro a ha b hb hab
    obtain ⟨k, _, rfl⟩ := (hmem a).1 ha
    obtain ⟨l, _, rfl⟩ := (hmem b).1 hb
    rw [hline, hline] at hab
    simp only [Option.map_some, Option.some.injEq] at hab
    by_cases hk : k = 0 <;> by_cases hl : l = 0 <;> simp_all
  · have h2 : (t.map Prod.snd).map some = (ss.map fun g => ug.count g).map some := by
      have h3 : (t.map some).map (Option.map Prod.snd) = (ss.map (groupLine ug)).map (Option.map Prod.snd) := by rw [hmap]
      have h4 : (ss.map (groupLine ug)).map (Option.map Prod.snd) = ss.map fun g => some (ug.count g) := by
        rw [List.map_map]
        refine List.map_congr_left fun g hg => ?_
        obtain ⟨k, _, rfl⟩ := (hmem g).1 hg
        rw [Function.comp_apply, hline, hcount]; rfl
      rw [h4] at h3
      simpa [List.map_map, Function.comp_def] using h3
    have h5 : t.map Prod.snd = ss.map fun g => ug.count g := List.map_injective_iff.2 (Option.some_injective _) h2
    rw [h5, hss, (hperm.map _).sum_eq, count_sum, hug, List.length_map]
  · intro g n
    rw [hm]
    constructor
    · rintro ⟨k, hk, h⟩
      rw [Prod.mk.injEq] at h
      by_cases h0 : k = 0
      · rw [if_pos h0] at h; exact absurd h.1 (by simp)
      · rw [if_neg h0, Option.some.injEq] at h
        obtain ⟨rfl, rfl⟩ := h
        exact ⟨h0, hk, rfl⟩
    · rintro ⟨h0, hk, rfl⟩
      exact ⟨g, hk, by rw [if_neg h0]⟩
  · intro n
    rw [hm]
    constructor
    · rintro ⟨k, hk, h⟩
      rw [Prod.mk.injEq] at h
      by_cases h0 : k = 0
      · subst h0; exact ⟨hk, h.2⟩
      · rw [if_neg h0] at h; exact absurd h.1 (by simp)
    · rintro ⟨hk, rfl⟩
      exact ⟨0, hk, by simp⟩

example : ∃ t, groupTable ([0, 4, 3, 0, 4].map codeOf) = some t ∧ (some 4, 2) ∈ t ∧ (none, 2) ∈ t := by
  obtain ⟨t, h, -, -, hg, hn⟩ := C266_groups [0, 4, 3, 0, 4]
  exact ⟨t, h, (hg 4 2).2 (by decide), (hn 2).2 (by decide)⟩

/-- **C266 (violated).**  With never-treated units coded as infinity, as documented, a group-time panel result cannot be printed. -/
theorem C266_infinite_violated (ug : List Code) (h : ⊤ ∈ ug) : groupTable ug = none := by
  have hm : (⊤ : Code) ∈ ug.dedup.mergeSort (fun a b => decide (a ≤ b)) := (List.mergeSort_perm _ _).mem_iff.2 (List.mem_dedup.2 h)
  have hn : groupLine ug ⊤ = none := by
    unfold groupLine
    rw [if_neg (by simp : (⊤ : Code) ≠ 0)]
    rfl
  rw [← Option.not_isSome_iff_eq_none]
  intro hs
  have := (mapM_isSome _ _).1 hs _ hm
  rw [hn] at this
  exact absurd this (by simp)

example : groupTable [(2 : ℚ), ⊤, (3 : ℚ)] = none := C266_infinite_violated _ (by simp)

end Verif.Report.Triple
