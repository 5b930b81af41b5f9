import Mathlib.Algebra.BigOperators.Field
import Mathlib.Algebra.BigOperators.Ring.Finset
import Mathlib.Algebra.Order.Field.Basic
import Mathlib.Algebra.Order.BigOperators.Ring.Finset
import Mathlib.Data.Fintype.BigOperators
import Mathlib.Data.Rat.Floor
import Mathlib.Order.WithBot
import Mathlib.Tactic.Ring
import Mathlib.Tactic.LinearCombination
import Mathlib.Tactic.Linarith

/-!
# Heterogeneity regressions of `did_multiplegt` (`predict_het`): C194-C196

`moderndid/didinter/compute_did_multiplegt.py:696-853`, the distributed version
`moderndid/distributed/_didinter_partition.py:1210-1397`, `moderndid/dask/_didinter_mp.py:714-770`, and the first differencing
of `core/preprocess/transformers.py:887-915`.  `K` is an exact field.  Covariates are observed numbers (a missing covariate makes
all results NaN); `trends_nonparam` dummies are left out.  `statsmodels`' WLS is any solution of the normal equations.
-/

set_option linter.unusedSectionVars false
set_option linter.unusedSimpArgs false

namespace Verif.Inter

variable {K : Type*} [Field K] [LinearOrder K] {p : ℕ}

/-- One row of the prepared frame: period, outcome, `weight_gt`, covariates of `predict_het`. -/
structure HRow (p : ℕ) (K : Type*) where
  t : ℤ
  y : Option K
  w : K
  x : Fin p → K

/-- One unit: its rows in order of the period, `F_g`, `S_g`, `d_sq`. -/
structure HUnit (p : ℕ) (K : Type*) where
  rows : List (HRow p K)
  F : WithTop ℤ
  S : ℤ
  dsq : K

/-- One row of the regression. -/
structure HObs (p : ℕ) (K : Type*) where
  y : K
  w : K
  x : Fin p → K
  F : ℤ
  dsq : K
  S : ℤ

/-- `when(t == tau).then(y)` averaged over the unit, `compute_did_multiplegt.py:732-735, 764-769`: nulls are ignored. -/
def meanAt (rows : List (HRow p K)) (τ : ℤ) : Option K :=
  let v := rows.filterMap fun r => if r.t = τ then r.y else none
  if v = [] then none else some (v.sum / v.length)

/-- `t_max_by_group`, `transformers.py:950-951`. -/
def lastT (rows : List (HRow p K)) : Option ℤ := (rows.map HRow.t).max?

/-- The row of one unit in the sample of a horizon, `compute_did_multiplegt.py:732-745, 763-785`: its first row, if everything is
observed. -/
def localObs (trends : Bool) (h : ℕ) (u : HUnit p K) : Option (HObs p K) :=
  match u.rows, u.F with
  | r :: rs, some f =>
    match meanAt (r :: rs) (f - 1), meanAt (r :: rs) (f - 1 + h), lastT (r :: rs) with
    | some y0, some y1, some T =>
      if f - 1 + h ≤ T then
        if trends then
          (meanAt (r :: rs) (f - 2)).map fun m => ⟨u.S * (y1 - y0 - h * (y0 - m)), r.w, r.x, f, u.dsq, u.S⟩
        else some ⟨u.S * (y1 - y0), r.w, r.x, f, u.dsq, u.S⟩
      else none
    | _, _, _ => none
  | _, _ => none

/-- The sample on a single machine. -/
def localSample (trends : Bool) (h : ℕ) (us : List (HUnit p K)) : List (HObs p K) := us.filterMap (localObs trends h)

/-- `y[np.where(t == tau)[0][0]]`, NaN or absent is `none`, `_didinter_partition.py:1293-1316`. -/
def firstAt (rows : List (HRow p K)) (τ : ℤ) : Option K := (rows.find? fun r => decide (r.t = τ)).bind HRow.y

/-- The row of one unit in the distributed sample, `_didinter_partition.py:1280-1330, 1359-1395`. -/
def distObs (trends : Bool) (h : ℕ) (u : HUnit p K) : Option (HObs p K) :=
  match u.rows, u.F with
  | r :: rs, some f =>
    if u.S = 0 then none
    else
      match firstAt (r :: rs) (f - 1), firstAt (r :: rs) (f - 1 + h), lastT (r :: rs) with
      | some y0, some y1, some T =>
        if f - 1 + h ≤ T then
          if trends then
            (firstAt (r :: rs) (f - 2)).map fun m => ⟨u.S * ((y1 - y0) - h * (y0 - m)), r.w, r.x, f, u.dsq, u.S⟩
          else some ⟨u.S * (y1 - y0), r.w, r.x, f, u.dsq, u.S⟩
        else none
      | _, _, _ => none
  | _, _ => none

/-- The rows of all partitions, one after the other, `_didinter_mp.py:742-749`. -/
def distSample (trends : Bool) (h : ℕ) (parts : List (List (HUnit p K))) : List (HObs p K) :=
  parts.flatMap fun q => q.filterMap (distObs trends h)

/-- The horizons to run, `compute_did_multiplegt.py:722-726`, `_didinter_mp.py:756-758`. -/
def hetHorizons (effects : ℕ) (asked : List ℤ) : List ℤ :=
  if -1 ∈ asked then (List.range effects).map fun (k : ℕ) => (k : ℤ) + 1
  else asked.filter fun h => decide (1 ≤ h) && decide (h ≤ effects)

/-! ## C194: who is in the sample, with what outcome -/

/-- A unit has at most one row per period. -/
def HUnit.Uniq (u : HUnit p K) : Prop := (u.rows.map HRow.t).Nodup

theorem filterMap_at (τ : ℤ) : ∀ rows : List (HRow p K), (rows.map HRow.t).Nodup →
    rows.filterMap (fun r => if r.t = τ then r.y else none) = (firstAt rows τ).toList
  | [], _ => by simp [firstAt]
  | r :: rows, hn => by
    have hn' := List.nodup_cons.1 (by simpa using hn : (r.t :: rows.map HRow.t).Nodup)
    by_cases e : r.t = τ
    · have hno : rows.filterMap (fun r => if r.t = τ then r.y else none) = [] := by
        rw [List.filterMap_eq_nil_iff]
        intro a ha
        rw [if_neg]
        intro h'
        apply hn'.1
        rw [e, ← h']
        exact List.mem_map.2 ⟨a, ha, rfl⟩
      have h1 : firstAt (r :: rows) τ = r.y := by
        unfold firstAt
        rw [List.find?_cons_of_pos (by simpa using e)]; rfl
      rw [h1]
      cases hy : r.y with
      | none => rw [List.filterMap_cons_none (by rw [if_pos e, hy]), hno]; rfl
      | some y => rw [List.filterMap_cons_some (by rw [if_pos e, hy]), hno]; rfl
    · have h1 : firstAt (r :: rows) τ = firstAt rows τ := by
        unfold firstAt
        rw [List.find?_cons_of_neg (by simpa using e)]
      rw [List.filterMap_cons_none (by rw [if_neg e]), h1]
      exact filterMap_at τ rows hn'.2

theorem meanAt_eq (rows : List (HRow p K)) (hn : (rows.map HRow.t).Nodup) (τ : ℤ) : meanAt rows τ = firstAt rows τ := by
  unfold meanAt
  rw [filterMap_at τ rows hn]
  cases firstAt rows τ <;> simp

theorem firstAt_iff (rows : List (HRow p K)) (hn : (rows.map HRow.t).Nodup) (τ : ℤ) (y : K) :
    firstAt rows τ = some y ↔ ∃ r ∈ rows, r.t = τ ∧ r.y = some y := by
  have := filterMap_at τ rows hn
  have h2 : y ∈ (firstAt rows τ).toList ↔ firstAt rows τ = some y := by
    cases firstAt rows τ <;> simp [eq_comm]
  rw [← h2, ← this]
  simp only [List.mem_filterMap]
  constructor
  · rintro ⟨r, hr, e⟩
    by_cases h' : r.t = τ
    · rw [if_pos h'] at e; exact ⟨r, hr, h', e⟩
    · rw [if_neg h'] at e; cases e
  · rintro ⟨r, hr, h', e⟩
    exact ⟨r, hr, by rw [if_pos h', e]⟩

/-- C194.  Without `trends_lin`, a unit is in the sample of horizon `h` exactly if it switches and its outcome is observed in the
last period before the switch and `h` periods later, and its value is the outcome change between the two, signed by the direction
of the switch. -/
theorem C194_sample (h : ℕ) (u : HUnit p K) (hu : u.Uniq) (v : K) :
    (∃ ob, localObs false h u = some ob ∧ ob.y = v) ↔
      ∃ f : ℤ, u.F = (f : WithTop ℤ) ∧ ∃ a ∈ u.rows, ∃ b ∈ u.rows, ∃ y0 y1, a.t = f - 1 ∧ b.t = f - 1 + h ∧ a.y = some y0 ∧
        b.y = some y1 ∧ v = u.S * (y1 - y0) := by
  obtain ⟨rows, F, S, dsq⟩ := u
  cases rows with
  | nil => simp [localObs]
  | cons r rs =>
    cases F with
    | top =>
      constructor
      · rintro ⟨ob, h1, _⟩; cases h1
      · rintro ⟨f, h1, _⟩; cases h1
    | coe f =>
      have hn : ((r :: rs).map HRow.t).Nodup := hu
      have hunf : localObs false h (⟨r :: rs, (f : WithTop ℤ), S, dsq⟩ : HUnit p K) =
          match meanAt (r :: rs) (f - 1), meanAt (r :: rs) (f - 1 + h), lastT (r :: rs) with
          | some y0, some y1, some T =>
            if f - 1 + h ≤ T then some ⟨S * (y1 - y0), r.w, r.x, f, dsq, S⟩ else none
          | _, _, _ => none := rfl
      rw [hunf, meanAt_eq _ hn, meanAt_eq _ hn]
      obtain ⟨T, hT⟩ : ∃ T, lastT (r :: rs) = some T := by unfold lastT; exact ⟨_, by simp [List.max?]; rfl⟩
      have hTle : ∀ a ∈ r :: rs, a.t ≤ T := by
        intro a ha
        have := List.max?_eq_some_iff.1 hT
        exact this.2 _ (List.mem_map.2 ⟨a, ha, rfl⟩)
      rw [hT]
      constructor
      · rintro ⟨ob, h1, h2⟩
        cases e0 : firstAt (r :: rs) (f - 1) with
        | none => rw [e0] at h1; cases h1
        | some y0 =>
          cases e1 : firstAt (r :: rs) (f - 1 + h) with
          | none => rw [e0, e1] at h1; cases h1
          | some y1 =>
            rw [e0, e1] at h1
            simp only at h1
            split_ifs at h1
            · obtain ⟨a, ha, ta, ya⟩ := (firstAt_iff _ hn _ _).1 e0
              obtain ⟨b, hb, tb, yb⟩ := (firstAt_iff _ hn _ _).1 e1
              refine ⟨f, rfl, a, ha, b, hb, y0, y1, ta, tb, ya, yb, ?_⟩
              rw [← h2, ← Option.some.inj h1]
      · rintro ⟨f', hf, a, ha, b, hb, y0, y1, ta, tb, ya, yb, hv⟩
        have : f = f' := WithTop.coe_injective hf
        subst this
        have e0 := (firstAt_iff _ hn (f - 1) y0).2 ⟨a, ha, ta, ya⟩
        have e1 := (firstAt_iff _ hn (f - 1 + h) y1).2 ⟨b, hb, tb, yb⟩
        have hle : f - 1 + h ≤ T := by rw [← tb]; exact hTle b hb
        rw [e0, e1]
        exact ⟨_, if_pos hle, hv.symm⟩

/-- C194.  Unit by unit, the distributed sample is the single-machine one. -/
theorem C194_unit (trends : Bool) (h : ℕ) (u : HUnit p K) (hu : u.Uniq) (hS : u.F ≠ ⊤ → u.S ≠ 0) :
    distObs trends h u = localObs trends h u := by
  obtain ⟨rows, F, S, dsq⟩ := u
  have hn : (rows.map HRow.t).Nodup := hu
  unfold distObs localObs
  cases rows with
  | nil => rfl
  | cons r rs =>
    cases F with
    | top => rfl
    | coe f =>
      have hS' : S ≠ 0 := hS (by simp)
      show (if S = 0 then none else _) = _
      rw [if_neg hS']
      simp only [meanAt_eq _ hn]

/-- C194.  The distributed sample is the single-machine sample up to the order of the rows, for every placement of the units. -/
theorem C194_distributed (trends : Bool) (h : ℕ) (us : List (HUnit p K)) (hu : ∀ u ∈ us, u.Uniq)
    (hS : ∀ u ∈ us, u.F ≠ ⊤ → u.S ≠ 0) (parts : List (List (HUnit p K))) (hp : parts.flatten.Perm us) :
    (distSample trends h parts).Perm (localSample trends h us) := by
  have h1 : distSample trends h parts = parts.flatten.filterMap (distObs trends h) := by
    unfold distSample
    clear hp
    induction parts with
    | nil => rfl
    | cons q parts ih => rw [List.flatMap_cons, ih, List.flatten_cons, List.filterMap_append]
  have h2 : us.filterMap (distObs trends h) = us.filterMap (localObs trends h) :=
    List.filterMap_congr fun u hm => C194_unit trends h u (hu u hm) (hS u hm)
  rw [h1]
  unfold localSample
  rw [← h2]
  exact hp.filterMap _

/-- C194.  Asking for -1 anywhere runs every horizon, otherwise the asked horizons between 1 and the number of effects run, in the
order asked. -/
theorem C194_horizons (effects : ℕ) (asked : List ℤ) (h : ℤ) :
    h ∈ hetHorizons effects asked ↔ 1 ≤ h ∧ h ≤ effects ∧ (-1 ∈ asked ∨ h ∈ asked) := by
  unfold hetHorizons
  split_ifs with e
  · simp only [List.mem_map, List.mem_range]
    constructor
    · rintro ⟨k, hk, rfl⟩; exact ⟨by omega, by omega, Or.inl e⟩
    · rintro ⟨h1, h2, _⟩; exact ⟨(h - 1).toNat, by omega, by omega⟩
  · simp only [List.mem_filter, Bool.and_eq_true, decide_eq_true_iff]
    constructor
    · rintro ⟨h1, h2, h3⟩; exact ⟨h2, h3, Or.inr h1⟩
    · rintro ⟨h1, h2, h3 | h3⟩
      · exact absurd h3 e
      · exact ⟨h3, h1, h2⟩


/-- A unit of an unbalanced panel that switches in period 4 and is not observed in period 2. -/
def exHet : HUnit 1 ℚ :=
  ⟨[⟨1, some 5, 1, fun _ => 2⟩, ⟨3, some 6, 1, fun _ => 2⟩, ⟨4, none, 0, fun _ => 2⟩, ⟨5, some 9, 1, fun _ => 2⟩],
    ((4 : ℤ) : WithTop ℤ), -1, 0⟩

example : exHet.Uniq ∧ (exHet.F ≠ ⊤ → exHet.S ≠ 0) ∧ (∃ ob, localObs false 2 exHet = some ob ∧ ob.y = -3) ∧
    localObs false 1 exHet = none ∧ localObs true 2 exHet = none := by
  have hu : exHet.Uniq := by unfold HUnit.Uniq exHet; decide
  refine ⟨hu, fun _ => by decide, ?_, ?_, ?_⟩
  · rw [C194_sample 2 exHet hu]
    exact ⟨4, rfl, ⟨3, some 6, 1, fun _ => 2⟩, by simp [exHet], ⟨5, some 9, 1, fun _ => 2⟩, by simp [exHet], 6, 9, rfl, rfl, rfl,
      rfl, by simp [exHet]; norm_num⟩
  · simp [localObs, exHet, meanAt, lastT]
  · simp [localObs, exHet, meanAt, lastT]

example : (distSample false 2 [[], [exHet], [exHet]]).Perm (localSample false 2 [exHet, exHet]) :=
  C194_distributed false 2 _ (fun u hu => by
      have : u = exHet := by simpa using hu
      subst this; unfold HUnit.Uniq exHet; decide)
    (fun u hu _ => by
      have : u = exHet := by simpa using hu
      subst this; decide) _ (by simp)

example : hetHorizons 4 [3, 7, 1] = [3, 1] ∧ hetHorizons 3 [2, -1] = [1, 2, 3] := by decide

/-! ## C195: the regression -/

/-- The regressors, `compute_did_multiplegt.py:804-830`: intercept, covariates, one dummy for each level but the smallest of
`F_g`, `d_sq`, `S_g`. -/
inductive HCol (p : ℕ) (K : Type*) where
  | const
  | cov (j : Fin p)
  | dF (a : ℤ)
  | dD (a : K)
  | dS (a : ℤ)

/-- The value of a regressor, `compute_did_multiplegt.py:823-830`. -/
def HCol.val (o : HObs p K) : HCol p K → K
  | .const => 1
  | .cov j => o.x j
  | .dF a => if o.F = a then 1 else 0
  | .dD a => if o.dsq = a then 1 else 0
  | .dS a => if o.S = a then 1 else 0

open Classical in
/-- `unique_vals[1:]`, `compute_did_multiplegt.py:806-812, 826-827`: the levels other than the smallest. -/
noncomputable def hLevels {A : Type*} [LinearOrder A] (s : List (HObs p K)) (v : HObs p K → A) : Finset A :=
  (s.map v).toFinset.filter fun a => ∃ o ∈ s, v o < a

open Classical in
/-- The columns of the design matrix, `compute_did_multiplegt.py:823-832`. -/
noncomputable def hCols (s : List (HObs p K)) : Finset (HCol p K) :=
  {HCol.const} ∪ Finset.univ.image HCol.cov ∪ (hLevels s HObs.F).image HCol.dF ∪ (hLevels s HObs.dsq).image HCol.dD ∪
    (hLevels s HObs.S).image HCol.dS

/-- The fitted value. -/
noncomputable def hFit (s : List (HObs p K)) (β : HCol p K → K) (o : HObs p K) : K := ∑ c ∈ hCols s, β c * c.val o

/-- `sm.WLS(y, X, weights).fit()`, `compute_did_multiplegt.py:834`: the normal equations. -/
def IsHetFit (s : List (HObs p K)) (β : HCol p K → K) : Prop :=
  ∀ c ∈ hCols s, (s.map fun o => o.w * c.val o * (o.y - hFit s β o)).sum = 0

/-- A regression is run if there are at least `p + 5` rows, `compute_did_multiplegt.py:783-784, 797-798`. -/
def hetRuns (s : List (HObs p K)) : Prop := p + 5 ≤ s.length

/-- No regressor is a combination of the others on the rows that have a weight. -/
def HFullRank (s : List (HObs p K)) : Prop :=
  ∀ a : HCol p K → K, (∀ o ∈ s, o.w ≠ 0 → hFit s a o = 0) → ∀ c ∈ hCols s, a c = 0

open Classical in
theorem hLevels_congr {A : Type*} [LinearOrder A] {s s' : List (HObs p K)} (v : HObs p K → A)
    (h : ∀ a, a ∈ s.map v ↔ a ∈ s'.map v) : hLevels s v = hLevels s' v := by
  have e : ∀ (l : List (HObs p K)) a, (∃ o ∈ l, v o < a) ↔ ∃ b ∈ l.map v, b < a := by
    intro l a; simp
  ext a
  unfold hLevels
  rw [Finset.mem_filter, Finset.mem_filter, List.mem_toFinset, List.mem_toFinset, e, e, h]
  simp only [h]

theorem hCols_congr {s s' : List (HObs p K)} (hF : ∀ a, a ∈ s.map HObs.F ↔ a ∈ s'.map HObs.F)
    (hD : ∀ a, a ∈ s.map HObs.dsq ↔ a ∈ s'.map HObs.dsq) (hS : ∀ a, a ∈ s.map HObs.S ↔ a ∈ s'.map HObs.S) :
    hCols s = hCols s' := by
  unfold hCols
  rw [hLevels_congr _ hF, hLevels_congr _ hD, hLevels_congr _ hS]

theorem list_sum_sub' {A : Type*} (l : List A) (f g : A → K) : (l.map f).sum - (l.map g).sum = (l.map fun a => f a - g a).sum := by
  induction l with
  | nil => simp
  | cons a l ih => simp only [List.map_cons, List.sum_cons, ← ih]; ring

/-- C195.  The result does not depend on the order of the rows. -/
theorem C195_order {s s' : List (HObs p K)} (h : s.Perm s') (β : HCol p K → K) : IsHetFit s β ↔ IsHetFit s' β := by
  have hc : hCols s = hCols s' := hCols_congr (fun a => (h.map _).mem_iff) (fun a => (h.map _).mem_iff)
    (fun a => (h.map _).mem_iff)
  unfold IsHetFit hFit
  rw [hc]
  constructor
  · intro H c hm
    rw [← H c hm]
    exact ((h.map _).sum_eq).symm
  · intro H c hm
    rw [← H c hm]
    exact (h.map _).sum_eq

theorem hFit_sub (s : List (HObs p K)) (a b : HCol p K → K) (o : HObs p K) :
    hFit s (fun c => a c - b c) o = hFit s a o - hFit s b o := by
  unfold hFit
  rw [← Finset.sum_sub_distrib]
  exact Finset.sum_congr rfl fun c _ => by ring

theorem hFit_add (s : List (HObs p K)) (a b : HCol p K → K) (o : HObs p K) :
    hFit s (fun c => a c + b c) o = hFit s a o + hFit s b o := by
  unfold hFit
  rw [← Finset.sum_add_distrib]
  exact Finset.sum_congr rfl fun c _ => by ring

theorem list_sum_finset {A B : Type*} (l : List A) (t : Finset B) (f : B → A → K) :
    (l.map fun o => ∑ c ∈ t, f c o).sum = ∑ c ∈ t, (l.map (f c)).sum := by
  induction l with
  | nil => simp
  | cons a l ih => simp only [List.map_cons, List.sum_cons, ih, Finset.sum_add_distrib]

/-- Two fits differ by nothing when no regressor is redundant. -/
theorem fit_unique [IsStrictOrderedRing K] (s : List (HObs p K)) (hw : ∀ o ∈ s, 0 ≤ o.w) (hr : HFullRank s)
    (β γ : HCol p K → K) (hβ : IsHetFit s β) (hγ : IsHetFit s γ) : ∀ c ∈ hCols s, β c = γ c := by
  have hq : (s.map fun o => o.w * (hFit s (fun c => β c - γ c) o) ^ 2).sum = 0 := by
    have h1 : ∀ c ∈ hCols s,
        (s.map fun o => (β c - γ c) * (o.w * c.val o * hFit s (fun c => β c - γ c) o)).sum = 0 := by
      intro c hc
      have e : (s.map fun o => (β c - γ c) * (o.w * c.val o * hFit s (fun c => β c - γ c) o)).sum =
          (β c - γ c) * ((s.map fun o => o.w * c.val o * (o.y - hFit s γ o)).sum -
            (s.map fun o => o.w * c.val o * (o.y - hFit s β o)).sum) := by
        rw [list_sum_sub', ← List.sum_map_mul_left]
        congr 1
        apply List.map_congr_left
        intro o _
        rw [hFit_sub]; ring
      rw [e, hβ c hc, hγ c hc]; ring
    have h2 : (s.map fun o => o.w * (hFit s (fun c => β c - γ c) o) ^ 2) =
        s.map fun o => ∑ c ∈ hCols s, (β c - γ c) * (o.w * c.val o * hFit s (fun c => β c - γ c) o) := by
      apply List.map_congr_left
      intro o _
      conv_lhs => rw [sq]
      conv_lhs => rw [show hFit s (fun c => β c - γ c) o * hFit s (fun c => β c - γ c) o =
        (∑ c ∈ hCols s, (β c - γ c) * c.val o) * hFit s (fun c => β c - γ c) o from rfl]
      rw [Finset.sum_mul, Finset.mul_sum]
      exact Finset.sum_congr rfl fun c _ => by ring
    rw [h2, list_sum_finset]
    exact Finset.sum_eq_zero h1
  have hz : ∀ o ∈ s, o.w * (hFit s (fun c => β c - γ c) o) ^ 2 = 0 := by
    have : ∀ l : List (HObs p K), (∀ o ∈ l, 0 ≤ o.w) →
        (l.map fun o => o.w * (hFit s (fun c => β c - γ c) o) ^ 2).sum = 0 →
        ∀ o ∈ l, o.w * (hFit s (fun c => β c - γ c) o) ^ 2 = 0 := by
      intro l
      induction l with
      | nil => intro _ _ o ho; cases ho
      | cons a l ih =>
        intro hl he o ho
        rw [List.map_cons, List.sum_cons] at he
        have ha : 0 ≤ a.w * (hFit s (fun c => β c - γ c) a) ^ 2 :=
          mul_nonneg (hl a List.mem_cons_self) (sq_nonneg _)
        have hb : 0 ≤ (l.map fun o => o.w * (hFit s (fun c => β c - γ c) o) ^ 2).sum := by
          apply List.sum_nonneg
          intro x hx
          obtain ⟨b, hb, rfl⟩ := List.mem_map.1 hx
          exact mul_nonneg (hl b (List.mem_cons_of_mem _ hb)) (sq_nonneg _)
        rcases List.mem_cons.1 ho with rfl | ho
        · linarith
        · exact ih (fun o ho => hl o (List.mem_cons_of_mem _ ho)) (by linarith) o ho
    exact this s hw hq
  intro c hc
  have := hr (fun c => β c - γ c) (fun o ho hne => by
    have := hz o ho
    rcases mul_eq_zero.1 this with h | h
    · exact absurd h hne
    · exact pow_eq_zero_iff (two_ne_zero) |>.1 h) c hc
  exact sub_eq_zero.1 this

/-- A function of a variable is a constant plus a combination of its dummies. -/
theorem levels_span {A : Type*} [LinearOrder A] (s : List (HObs p K)) (v : HObs p K → A) (g : A → K) :
    ∃ a0 : K, ∃ a : A → K, ∀ o ∈ s, g (v o) = a0 + ∑ l ∈ hLevels s v, a l * (if v o = l then 1 else 0) := by
  classical
  by_cases hs : s = []
  · subst hs; exact ⟨0, fun _ => 0, fun o ho => by cases ho⟩
  · obtain ⟨m, hm, hmin⟩ : ∃ m ∈ s, ∀ o ∈ s, v m ≤ v o := by
      have hne : ((s.map v).toFinset).Nonempty := by
        obtain ⟨x, hx⟩ := List.exists_mem_of_ne_nil s hs
        exact ⟨v x, List.mem_toFinset.2 (List.mem_map.2 ⟨x, hx, rfl⟩)⟩
      have h1 := Finset.min'_mem _ hne
      obtain ⟨m, hm, e⟩ := List.mem_map.1 (List.mem_toFinset.1 h1)
      refine ⟨m, hm, fun o ho => ?_⟩
      rw [e]
      exact Finset.min'_le _ _ (List.mem_toFinset.2 (List.mem_map.2 ⟨o, ho, rfl⟩))
    refine ⟨g (v m), fun l => g l - g (v m), fun o ho => ?_⟩
    by_cases e : v o = v m
    · rw [e, Finset.sum_eq_zero, add_zero]
      intro l hl
      rw [if_neg, mul_zero]
      intro h'
      obtain ⟨o', ho', hlt⟩ := (Finset.mem_filter.1 hl).2
      rw [← h'] at hlt
      exact absurd (hmin o' ho') (not_le.2 hlt)
    · rw [Finset.sum_eq_single (v o)]
      · rw [if_pos rfl]; ring
      · intro l _ hne
        rw [if_neg (fun h => hne h.symm), mul_zero]
      · intro hn
        exfalso
        apply hn
        unfold hLevels
        rw [Finset.mem_filter]
        exact ⟨List.mem_toFinset.2 (List.mem_map.2 ⟨o, ho, rfl⟩), m, hm, lt_of_le_of_ne (hmin o ho) (Ne.symm e)⟩

open Classical in
theorem hFit_split (s : List (HObs p K)) (β : HCol p K → K) (o : HObs p K) :
    hFit s β o = β .const + ∑ j, β (.cov j) * o.x j + ∑ a ∈ hLevels s HObs.F, β (.dF a) * (if o.F = a then 1 else 0) +
      ∑ a ∈ hLevels s HObs.dsq, β (.dD a) * (if o.dsq = a then 1 else 0) +
      ∑ a ∈ hLevels s HObs.S, β (.dS a) * (if o.S = a then 1 else 0) := by
  unfold hFit hCols
  rw [Finset.sum_union, Finset.sum_union, Finset.sum_union, Finset.sum_union, Finset.sum_singleton, Finset.sum_image,
    Finset.sum_image, Finset.sum_image, Finset.sum_image]
  · simp only [HCol.val, mul_one]
  all_goals first
    | (intro a _ b _ h; injection h)
    | (rw [Finset.disjoint_left]
       intro c h1 h2
       simp only [Finset.mem_union, Finset.mem_singleton, Finset.mem_image] at h1 h2
       aesop)

/-- The outcomes of a sample replaced. -/
def HObs.addY (f : HObs p K → K) (o : HObs p K) : HObs p K := { o with y := o.y + f o }

theorem hCols_addY (s : List (HObs p K)) (f : HObs p K → K) : hCols (s.map (HObs.addY f)) = hCols s := by
  apply hCols_congr <;> intro a <;> rw [List.map_map] <;> rfl

theorem val_addY (f : HObs p K → K) (o : HObs p K) (c : HCol p K) : c.val (o.addY f) = c.val o := by cases c <;> rfl

theorem hFit_addY (s : List (HObs p K)) (f : HObs p K → K) (β : HCol p K → K) (o : HObs p K) :
    hFit (s.map (HObs.addY f)) β (o.addY f) = hFit s β o := by
  unfold hFit
  rw [hCols_addY]
  exact Finset.sum_congr rfl fun c _ => by rw [val_addY]

theorem isHetFit_addY (s : List (HObs p K)) (f : HObs p K → K) (β : HCol p K → K) :
    IsHetFit (s.map (HObs.addY f)) β ↔ ∀ c ∈ hCols s, (s.map fun o => o.w * c.val o * (o.y + f o - hFit s β o)).sum = 0 := by
  unfold IsHetFit
  rw [hCols_addY]
  refine forall₂_congr fun c _ => ?_
  rw [List.map_map]
  have : (s.map ((fun o => o.w * c.val o * (o.y - hFit (s.map (HObs.addY f)) β o)) ∘ HObs.addY f)) =
      s.map fun o => o.w * c.val o * (o.y + f o - hFit s β o) := by
    apply List.map_congr_left
    intro o _
    show (o.addY f).w * c.val (o.addY f) * ((o.addY f).y - hFit (s.map (HObs.addY f)) β (o.addY f)) = _
    rw [hFit_addY, val_addY]; rfl
  rw [this]

theorem fullRank_addY (s : List (HObs p K)) (f : HObs p K → K) (h : HFullRank s) : HFullRank (s.map (HObs.addY f)) := by
  intro a ha c hc
  rw [hCols_addY] at hc
  refine h a (fun o ho hw => ?_) c hc
  rw [← hFit_addY s f]
  exact ha _ (List.mem_map.2 ⟨o, ho, rfl⟩) hw

/-- C195.  Adding to the outcomes a linear function of the covariates and any function of the switching date, any function of the
baseline treatment and any function of the direction moves the reported coefficients by exactly the coefficients of that linear
function. -/
theorem C195_shift [IsStrictOrderedRing K] (s : List (HObs p K)) (hw : ∀ o ∈ s, 0 ≤ o.w) (hr : HFullRank s) (b : Fin p → K)
    (gF : ℤ → K) (gD : K → K) (gS : ℤ → K) (β β' : HCol p K → K) (hβ : IsHetFit s β)
    (hβ' : IsHetFit (s.map (HObs.addY fun o => ∑ j, b j * o.x j + gF o.F + gD o.dsq + gS o.S)) β') (j : Fin p) :
    β' (.cov j) = β (.cov j) + b j := by
  classical
  obtain ⟨f0, fa, hf⟩ := levels_span s HObs.F gF
  obtain ⟨d0, da, hd⟩ := levels_span s HObs.dsq gD
  obtain ⟨s0, sa, hs⟩ := levels_span s HObs.S gS
  obtain ⟨δ, hδ⟩ : ∃ δ : HCol p K → K, δ = fun c => match c with
    | .const => f0 + d0 + s0
    | .cov j => b j
    | .dF a => fa a
    | .dD a => da a
    | .dS a => sa a := ⟨_, rfl⟩
  have hfit : ∀ o ∈ s, hFit s δ o = ∑ j, b j * o.x j + gF o.F + gD o.dsq + gS o.S := by
    intro o ho
    rw [hFit_split, hf o ho, hd o ho, hs o ho, hδ]
    ring
  have h1 : IsHetFit (s.map (HObs.addY fun o => ∑ j, b j * o.x j + gF o.F + gD o.dsq + gS o.S)) (fun c => β c + δ c) := by
    rw [isHetFit_addY]
    intro c hc
    rw [← hβ c hc]
    congr 1
    apply List.map_congr_left
    intro o ho
    rw [hFit_add, hfit o ho]; ring
  have hc : HCol.cov j ∈ hCols s := by unfold hCols; simp
  have := fit_unique _ (fun o ho => by
    obtain ⟨o', ho', rfl⟩ := List.mem_map.1 ho
    exact hw o' ho') (fullRank_addY s _ hr) _ _ hβ' h1 (.cov j) (by rw [hCols_addY]; exact hc)
  rw [this, hδ]

/-- C195.  If the outcome changes are exactly a linear function of the covariates plus functions of the switching date, the baseline
treatment and the direction, the reported coefficients are those of the linear function. -/
theorem C195_recovers [IsStrictOrderedRing K] (s : List (HObs p K)) (hw : ∀ o ∈ s, 0 ≤ o.w) (hr : HFullRank s) (b : Fin p → K)
    (gF : ℤ → K) (gD : K → K) (gS : ℤ → K) (hy : ∀ o ∈ s, o.y = ∑ j, b j * o.x j + gF o.F + gD o.dsq + gS o.S)
    (β : HCol p K → K) (hβ : IsHetFit s β) (j : Fin p) : β (.cov j) = b j := by
  have h0 : IsHetFit (s.map (HObs.addY fun o => ∑ j, -b j * o.x j + -gF o.F + -gD o.dsq + -gS o.S)) (fun _ => 0) := by
    rw [isHetFit_addY]
    intro c _
    apply List.sum_eq_zero
    intro x hx
    obtain ⟨o, ho, rfl⟩ := List.mem_map.1 hx
    have e : hFit s (fun _ => (0 : K)) o = 0 := by unfold hFit; simp
    rw [e, hy o ho]
    simp only [neg_mul, Finset.sum_neg_distrib]
    ring
  have := C195_shift s hw hr (fun j => -b j) (fun a => -gF a) (fun a => -gD a) (fun a => -gS a) β (fun _ => 0) hβ h0 j
  linarith

/-- C195.  With switchers in one direction only, outcomes that move by a common period shock leave the coefficients unchanged. -/
theorem C195_common_shock [IsStrictOrderedRing K] (s : List (HObs p K)) (hw : ∀ o ∈ s, 0 ≤ o.w) (hr : HFullRank s) (h : ℕ)
    (dir : ℤ) (hdir : ∀ o ∈ s, o.S = dir) (shock : ℤ → K) (β β' : HCol p K → K) (hβ : IsHetFit s β)
    (hβ' : IsHetFit (s.map (HObs.addY fun o => o.S * (shock (o.F - 1 + h) - shock (o.F - 1)))) β') (j : Fin p) :
    β' (.cov j) = β (.cov j) := by
  have e : s.map (HObs.addY fun o => (o.S : K) * (shock (o.F - 1 + h) - shock (o.F - 1))) =
      s.map (HObs.addY fun o => ∑ j, (0 : Fin p → K) j * o.x j + (dir : K) * (shock (o.F - 1 + h) - shock (o.F - 1)) + 0 + 0) := by
    apply List.map_congr_left
    intro o ho
    simp only [HObs.addY, hdir o ho, Pi.zero_apply, zero_mul, Finset.sum_const_zero, zero_add, add_zero]
  rw [e] at hβ'
  have := C195_shift s hw hr 0 (fun f => (dir : K) * (shock (f - 1 + h) - shock (f - 1))) (fun _ => 0) (fun _ => 0) β β' hβ hβ' j
  simpa using this


/-- A unit without any effect of the treatment: its outcome is the common period shock 0, 0, 1. -/
def shockUnit (F S : ℤ) (x : ℚ) : HUnit 1 ℚ :=
  ⟨[⟨1, some 0, 1, fun _ => x⟩, ⟨2, some 0, 1, fun _ => x⟩, ⟨3, some 1, 1, fun _ => x⟩], (F : WithTop ℤ), S, 0⟩

/-- Two units for every date and direction. -/
def shockUnits : List (HUnit 1 ℚ) :=
  [shockUnit 2 1 0, shockUnit 2 (-1) 0, shockUnit 3 1 1, shockUnit 3 (-1) (-1), shockUnit 2 1 0, shockUnit 2 (-1) 0,
    shockUnit 3 1 1, shockUnit 3 (-1) (-1)]

/-- The rows of the sample. -/
def shockObs (y : ℚ) (F S : ℤ) (x : ℚ) : HObs 1 ℚ := ⟨y, 1, fun _ => x, F, 0, S⟩

theorem shock_sample : localSample false 1 shockUnits =
    [shockObs 0 2 1 0, shockObs 0 2 (-1) 0, shockObs 1 3 1 1, shockObs (-1) 3 (-1) (-1), shockObs 0 2 1 0,
      shockObs 0 2 (-1) 0, shockObs 1 3 1 1, shockObs (-1) 3 (-1) (-1)] := by
  simp [localSample, shockUnits, localObs, shockUnit, meanAt, lastT, shockObs]

theorem shock_rank : HFullRank (localSample false 1 shockUnits) := by
  rw [shock_sample]
  obtain ⟨s, hs⟩ : ∃ s, s = [shockObs 0 2 1 0, shockObs 0 2 (-1) 0, shockObs 1 3 1 1, shockObs (-1) 3 (-1) (-1), shockObs 0 2 1 0,
      shockObs 0 2 (-1) 0, shockObs 1 3 1 1, shockObs (-1) 3 (-1) (-1)] := ⟨_, rfl⟩
  rw [← hs]
  have hF : hLevels s HObs.F = {3} := by
    subst hs
    ext a
    unfold hLevels
    simp only [Finset.mem_filter, List.mem_toFinset, Finset.mem_singleton, shockObs, List.map_cons, List.map_nil, List.mem_cons,
      List.not_mem_nil, or_false, exists_eq_or_imp, exists_eq_left]
    omega
  have hD : hLevels s HObs.dsq = ∅ := by
    subst hs
    ext a
    unfold hLevels
    simp only [Finset.mem_filter, List.mem_toFinset, Finset.notMem_empty, iff_false, shockObs, List.map_cons, List.map_nil,
      List.mem_cons, List.not_mem_nil, or_false, exists_eq_or_imp, exists_eq_left, or_self]
    rintro ⟨rfl, h⟩
    exact lt_irrefl _ h
  have hS : hLevels s HObs.S = {1} := by
    subst hs
    ext a
    unfold hLevels
    simp only [Finset.mem_filter, List.mem_toFinset, Finset.mem_singleton, shockObs, List.map_cons, List.map_nil, List.mem_cons,
      List.not_mem_nil, or_false, exists_eq_or_imp, exists_eq_left]
    omega
  intro a ha c hc
  have k : ∀ o ∈ s, a .const + a (.cov 0) * o.x 0 + a (.dF 3) * (if o.F = 3 then 1 else 0) +
      a (.dS 1) * (if o.S = 1 then 1 else 0) = 0 := by
    intro o ho
    have hw : o.w ≠ 0 := by
      subst hs
      simp only [List.mem_cons, List.not_mem_nil, or_false] at ho
      rcases ho with rfl | rfl | rfl | rfl | rfl | rfl | rfl | rfl <;> exact one_ne_zero
    have := ha o ho hw
    rw [hFit_split, hF, hD, hS, Finset.sum_singleton, Finset.sum_singleton, Finset.sum_empty, Fintype.sum_unique, add_zero] at this
    exact this
  have k1 := k (shockObs 0 2 1 0) (by rw [hs]; simp)
  have k2 := k (shockObs 0 2 (-1) 0) (by rw [hs]; simp)
  have k3 := k (shockObs 1 3 1 1) (by rw [hs]; simp)
  have k4 := k (shockObs (-1) 3 (-1) (-1)) (by rw [hs]; simp)
  simp [shockObs] at k1 k2 k3 k4
  have hc' : c = .const ∨ (∃ j, c = .cov j) ∨ c = .dF 3 ∨ c = .dS 1 := by
    unfold hCols at hc
    rw [hF, hD, hS] at hc
    simp only [Finset.mem_union, Finset.mem_singleton, Finset.mem_image, Finset.image_empty, Finset.notMem_empty,
      Finset.mem_univ, true_and, or_false, exists_eq_left] at hc
    rcases hc with ((h | ⟨j, h⟩) | h) | h
    · exact Or.inl h
    · exact Or.inr (Or.inl ⟨j, h.symm⟩)
    · exact Or.inr (Or.inr (Or.inl h.symm))
    · exact Or.inr (Or.inr (Or.inr h.symm))
  rcases hc' with rfl | ⟨j, rfl⟩ | rfl | rfl
  · linarith
  · rw [Subsingleton.elim j 0]; linarith
  · linarith
  · linarith

/-- C195 (violated).  With switchers in both directions a common period shock, and nothing else, gives the covariate a coefficient:
no outcome depends on the unit, the date dummies and the direction dummy are not interacted, and the coefficient is 1. -/
theorem C195_shock_violated : hetRuns (localSample false 1 shockUnits) ∧
    (∀ u ∈ shockUnits, ∀ r ∈ u.rows, r.y = some (if r.t = 3 then 1 else 0)) ∧
    (∃ β, IsHetFit (localSample false 1 shockUnits) β) ∧
    ∀ β, IsHetFit (localSample false 1 shockUnits) β → β (.cov 0) = 1 := by
  refine ⟨?_, ?_, ?_, ?_⟩
  · rw [shock_sample]; show 6 ≤ 8; decide
  · intro u hu r hr
    simp only [shockUnits, List.mem_cons, List.not_mem_nil, or_false] at hu
    rcases hu with rfl | rfl | rfl | rfl | rfl | rfl | rfl | rfl <;>
    · simp only [shockUnit, List.mem_cons, List.not_mem_nil, or_false] at hr
      rcases hr with rfl | rfl | rfl <;> simp
  · classical
    refine ⟨fun c => match c with
      | .cov _ => 1
      | _ => 0, ?_⟩
    intro c _
    apply List.sum_eq_zero
    intro v hv
    obtain ⟨o, ho, rfl⟩ := List.mem_map.1 hv
    rw [hFit_split]
    rw [shock_sample] at ho
    simp only [List.mem_cons, List.not_mem_nil, or_false] at ho
    rcases ho with rfl | rfl | rfl | rfl | rfl | rfl | rfl | rfl <;> simp [shockObs]
  · intro β hβ
    refine C195_recovers _ ?_ shock_rank (fun _ => 1) (fun _ => 0) (fun _ => 0) (fun _ => 0) ?_ β hβ 0
    · intro o ho
      rw [shock_sample] at ho
      simp only [List.mem_cons, List.not_mem_nil, or_false] at ho
      rcases ho with rfl | rfl | rfl | rfl | rfl | rfl | rfl | rfl <;> exact zero_le_one
    · intro o ho
      rw [shock_sample] at ho
      simp only [List.mem_cons, List.not_mem_nil, or_false] at ho
      rcases ho with rfl | rfl | rfl | rfl | rfl | rfl | rfl | rfl <;> simp [shockObs]

/-! ## C196: weights and linear trends -/

/-- `weight_gt`, `transformers.py:933-943`: zero where the outcome or the treatment is missing. -/
def weightGt (y d : Option K) (w : Option K) : K := if y = none ∨ d = none then 0 else w.getD 0

/-- `y - y.shift(1)`, `transformers.py:902-904`: the change since the unit's previous row. -/
def diffRows : Option K → List (HRow p K) → List (HRow p K)
  | _, [] => []
  | prev, r :: rs => { r with y := r.y.bind fun y => prev.map fun y' => y - y' } :: diffRows r.y rs

/-- `TrendsLinTransformer` on a unit, `transformers.py:896-913`: differences, then the first period of the data is dropped. -/
def trendsRows (tmin : ℤ) (rows : List (HRow p K)) : List (HRow p K) := (diffRows none rows).filter fun r => decide (r.t ≠ tmin)

/-- A unit observed in every period from `t` on, `n` times. -/
def fullRows (Y : ℤ → K) (w : K) (x : Fin p → K) : ℤ → ℕ → List (HRow p K)
  | _, 0 => []
  | t, n + 1 => ⟨t, some (Y t), w, x⟩ :: fullRows Y w x (t + 1) n

theorem diff_full (Y : ℤ → K) (w : K) (x : Fin p → K) (n : ℕ) (t : ℤ) :
    diffRows (some (Y (t - 1))) (fullRows Y w x t n) = fullRows (fun τ => Y τ - Y (τ - 1)) w x t n := by
  induction n generalizing t with
  | zero => rfl
  | succ n ih =>
    have := ih (t + 1)
    rw [add_sub_cancel_right] at this
    simp only [fullRows, diffRows, this]
    rfl

theorem full_t (Y : ℤ → K) (w : K) (x : Fin p → K) (n : ℕ) (t : ℤ) (r : HRow p K) :
    r ∈ fullRows Y w x t n ↔ t ≤ r.t ∧ r.t < t + n ∧ r.y = some (Y r.t) ∧ r.w = w ∧ r.x = x := by
  induction n generalizing t with
  | zero =>
    simp only [fullRows, List.not_mem_nil, false_iff, Nat.cast_zero]
    omega
  | succ n ih =>
    rw [fullRows, List.mem_cons, ih]
    push_cast
    constructor
    · rintro (rfl | ⟨h1, h2, h3⟩)
      · exact ⟨le_refl _, by show t < t + (n + 1); omega, rfl, rfl, rfl⟩
      · exact ⟨by omega, by omega, h3⟩
    · rintro ⟨h1, h2, h3, h4, h5⟩
      by_cases e : r.t = t
      · left
        obtain ⟨rt, ry, rw', rx⟩ := r
        simp only at e h3 h4 h5
        subst e h3 h4 h5
        rfl
      · right; exact ⟨by omega, by omega, h3, h4, h5⟩

theorem full_nodup (Y : ℤ → K) (w : K) (x : Fin p → K) (n : ℕ) (t : ℤ) : ((fullRows Y w x t n).map HRow.t).Nodup := by
  induction n generalizing t with
  | zero => exact List.nodup_nil
  | succ n ih =>
    rw [fullRows, List.map_cons, List.nodup_cons]
    refine ⟨?_, ih _⟩
    intro h
    obtain ⟨r, hr, e⟩ := List.mem_map.1 h
    have := ((full_t _ _ _ _ _ _).1 hr).1
    simp only at e
    omega

theorem trends_full (Y : ℤ → K) (w : K) (x : Fin p → K) (n : ℕ) (t : ℤ) :
    trendsRows t (fullRows Y w x t (n + 1)) = fullRows (fun τ => Y τ - Y (τ - 1)) w x (t + 1) n := by
  have h1 := diff_full Y w x n (t + 1)
  rw [add_sub_cancel_right] at h1
  unfold trendsRows
  rw [fullRows, diffRows, h1, List.filter_cons_of_neg (by simp), List.filter_eq_self]
  intro r hr
  have := ((full_t _ _ _ _ _ _).1 hr).1
  simp only [ne_eq, decide_not, Bool.not_eq_true', decide_eq_false_iff_not]
  omega

theorem full_lastT (Y : ℤ → K) (w : K) (x : Fin p → K) (n : ℕ) (t : ℤ) : lastT (fullRows Y w x t (n + 1)) = some (t + n) := by
  unfold lastT
  rw [List.max?_eq_some_iff]
  refine ⟨List.mem_map.2 ⟨⟨t + n, some (Y (t + n)), w, x⟩, ?_, rfl⟩, ?_⟩
  · rw [full_t]; refine ⟨?_, ?_, rfl, rfl, rfl⟩ <;> push_cast <;> simp
  · intro b hb
    obtain ⟨r, hr, rfl⟩ := List.mem_map.1 hb
    have := ((full_t _ _ _ _ _ _).1 hr).2.1
    push_cast at this
    omega

theorem full_meanAt (Y : ℤ → K) (w : K) (x : Fin p → K) (n : ℕ) (t τ : ℤ) (h1 : t ≤ τ) (h2 : τ < t + n) :
    meanAt (fullRows Y w x t n) τ = some (Y τ) := by
  rw [meanAt_eq _ (full_nodup Y w x n t), firstAt_iff _ (full_nodup Y w x n t)]
  exact ⟨⟨τ, some (Y τ), w, x⟩, (full_t _ _ _ _ _ _).2 ⟨h1, h2, rfl, rfl, rfl⟩, rfl, rfl⟩

/-- C196.  With `trends_lin`, what is regressed for a unit observed in every period is the change in the *growth* of its outcome since
before the switch, less `h` times the change of growth just before the switch. -/
theorem C196_trends (Y : ℤ → K) (w : K) (x : Fin p → K) (t f : ℤ) (n h : ℕ) (S : ℤ) (dsq : K) (h1 : t + 3 ≤ f)
    (h2 : f - 1 + h ≤ t + n) :
    (localObs true h ⟨trendsRows t (fullRows Y w x t (n + 1)), (f : WithTop ℤ), S, dsq⟩).map HObs.y =
      some (S * ((Y (f - 1 + h) - Y (f - 1 + h - 1)) - (Y (f - 1) - Y (f - 2)) -
        h * ((Y (f - 1) - Y (f - 2)) - (Y (f - 2) - Y (f - 3))))) := by
  rw [trends_full]
  cases n with
  | zero => omega
  | succ n =>
    obtain ⟨G, hG⟩ : ∃ G : ℤ → K, G = fun τ => Y τ - Y (τ - 1) := ⟨_, rfl⟩
    rw [← hG]
    have e0 := full_meanAt G w x (n + 1) (t + 1) (f - 1) (by omega) (by push_cast at h2 ⊢; omega)
    have e1 := full_meanAt G w x (n + 1) (t + 1) (f - 1 + h) (by omega) (by push_cast at h2 ⊢; omega)
    have e2 := full_meanAt G w x (n + 1) (t + 1) (f - 2) (by omega) (by push_cast at h2 ⊢; omega)
    have e3 := full_lastT G w x n (t + 1)
    have hle : f - 1 + h ≤ t + 1 + n := by push_cast at h2; omega
    rw [fullRows] at e0 e1 e2 e3 ⊢
    have hunf : ∀ (r : HRow p K) (rs : List (HRow p K)), localObs true h (⟨r :: rs, (f : WithTop ℤ), S, dsq⟩ : HUnit p K) =
        match meanAt (r :: rs) (f - 1), meanAt (r :: rs) (f - 1 + h), lastT (r :: rs) with
        | some y0, some y1, some T =>
          if f - 1 + h ≤ T then
            (meanAt (r :: rs) (f - 2)).map fun m => ⟨S * (y1 - y0 - h * (y0 - m)), r.w, r.x, f, dsq, S⟩ else none
        | _, _, _ => none := fun _ _ => rfl
    rw [hunf, e0, e1, e2, e3]
    simp only [if_pos hle, Option.map_some, hG]
    rw [show f - 1 - 1 = f - 2 by ring, show f - 2 - 1 = f - 3 by ring]

/-- C196 (violated).  For an outcome that is a unit-specific linear trend plus a constant effect `tau` from the switch on, the effect
relative to the unit's trend is `tau` at every horizon, but what is regressed is `tau` at the first horizon and 0 at all later
ones. -/
theorem C196_trends_violated (a b tau w : K) (x : Fin p → K) (t f : ℤ) (n h : ℕ) (S : ℤ) (dsq : K) (h1 : t + 3 ≤ f) (h0 : 1 ≤ h)
    (h2 : f - 1 + h ≤ t + n) :
    (localObs true h ⟨trendsRows t (fullRows (fun τ => a + b * τ + if f ≤ τ then tau else 0) w x t (n + 1)), (f : WithTop ℤ), S,
      dsq⟩).map HObs.y = some (if h = 1 then S * tau else 0) := by
  rw [C196_trends _ w x t f n h S dsq h1 h2]
  have c1 : f ≤ f - 1 + (h : ℤ) := by omega
  have c2 : ¬ f ≤ f - 1 := by omega
  have c3 : ¬ f ≤ f - 2 := by omega
  have c4 : ¬ f ≤ f - 3 := by omega
  simp only [if_pos c1, if_neg c2, if_neg c3, if_neg c4]
  by_cases e : h = 1
  · have c5 : ¬ f ≤ f - 1 + (h : ℤ) - 1 := by omega
    rw [if_neg c5, if_pos e]
    subst e
    push_cast
    congr 1
    ring
  · have c5 : f ≤ f - 1 + (h : ℤ) - 1 := by omega
    rw [if_pos c5, if_neg e]
    push_cast
    congr 1
    ring

example : (localObs true 2 (⟨trendsRows 1 (fullRows (fun τ => 5 + 3 * τ + if 4 ≤ τ then 7 else 0) 1 (fun _ => 0) 1 6),
    ((4 : ℤ) : WithTop ℤ), 1, 0⟩ : HUnit 1 ℚ)).map HObs.y = some 0 :=
  by simpa using C196_trends_violated (p := 1) (5 : ℚ) 3 7 1 (fun _ => 0) 1 4 5 2 1 0 (by norm_num) (by norm_num) (by norm_num)

/-- The sample keeps the weight of the unit's first row. -/
theorem localObs_weight (trends : Bool) (h : ℕ) (u : HUnit p K) (r : HRow p K) (rs : List (HRow p K)) (hr : u.rows = r :: rs)
    (ob : HObs p K) (ho : localObs trends h u = some ob) :
    ob.w = r.w ∧ ob.x = r.x ∧ (ob.F : WithTop ℤ) = u.F ∧ ob.dsq = u.dsq ∧ ob.S = u.S := by
  obtain ⟨rows, F, S, dsq⟩ := u
  simp only at hr
  subst hr
  cases F with
  | top => cases ho
  | coe f =>
    have hunf : localObs trends h (⟨r :: rs, (f : WithTop ℤ), S, dsq⟩ : HUnit p K) =
        match meanAt (r :: rs) (f - 1), meanAt (r :: rs) (f - 1 + h), lastT (r :: rs) with
        | some y0, some y1, some T =>
          if f - 1 + h ≤ T then
            if trends then
              (meanAt (r :: rs) (f - 2)).map fun m => ⟨S * (y1 - y0 - h * (y0 - m)), r.w, r.x, f, dsq, S⟩
            else some ⟨S * (y1 - y0), r.w, r.x, f, dsq, S⟩
          else none
        | _, _, _ => none := rfl
    rw [hunf] at ho
    split at ho
    · split_ifs at ho
      · cases e : meanAt (r :: rs) (f - 2) with
        | none => rw [e] at ho; cases ho
        | some m =>
          rw [e] at ho
          rw [← Option.some.inj ho]; exact ⟨rfl, rfl, rfl, rfl, rfl⟩
      · rw [← Option.some.inj ho]; exact ⟨rfl, rfl, rfl, rfl, rfl⟩
    · cases ho

/-- C196 (violated).  With `trends_lin` the first row of every unit that enters the data after the first period has no outcome left, so
`weight_gt` is zero there. -/
theorem C196_late_violated (tmin : ℤ) (r : HRow p K) (rs : List (HRow p K)) (ht : r.t ≠ tmin) (d w : Option K) :
    ∃ r' rs', trendsRows tmin (r :: rs) = r' :: rs' ∧ r'.t = r.t ∧ weightGt r'.y d w = 0 := by
  refine ⟨{ r with y := none }, (diffRows r.y rs).filter fun r => decide (r.t ≠ tmin), ?_, rfl, ?_⟩
  · unfold trendsRows
    rw [diffRows, List.filter_cons_of_pos (by simpa using ht)]
    cases r.y <;> rfl
  · simp [weightGt]

/-- C196 (violated).  A unit whose outcome is missing in its first row has weight zero there, and then its outcome changes have no
influence on the coefficients, although they are observed and the unit counts as a row of the regression. -/
theorem C196_weight_violated (trends : Bool) (h : ℕ) (us vs : List (HUnit p K)) (u u' : HUnit p K) (r : HRow p K)
    (rs rs' : List (HRow p K)) (hr : u.rows = r :: rs) (hr' : u'.rows = r :: rs') (hw : r.w = weightGt none (some 1) (some 1))
    (hF : u.F = u'.F) (hS : u.S = u'.S) (hd : u.dsq = u'.dsq) (ob ob' : HObs p K) (ho : localObs trends h u = some ob)
    (ho' : localObs trends h u' = some ob') (β : HCol p K → K) :
    IsHetFit (localSample trends h (us ++ u :: vs)) β ↔ IsHetFit (localSample trends h (us ++ u' :: vs)) β := by
  have e : ∀ v : HUnit p K, ∀ o, localObs trends h v = some o → localSample trends h (us ++ v :: vs) =
      localSample trends h us ++ o :: localSample trends h vs := by
    intro v o hv
    unfold localSample
    rw [List.filterMap_append, List.filterMap_cons_some hv]
  rw [e u ob ho, e u' ob' ho']
  obtain ⟨w1, x1, f1, d1, s1⟩ := localObs_weight trends h u r rs hr ob ho
  obtain ⟨w2, x2, f2, d2, s2⟩ := localObs_weight trends h u' r rs' hr' ob' ho'
  have hw0 : r.w = 0 := by rw [hw]; simp [weightGt]
  have hF' : ob.F = ob'.F := WithTop.coe_injective (by rw [f1, f2, hF])
  have hc : hCols (localSample trends h us ++ ob :: localSample trends h vs) =
      hCols (localSample trends h us ++ ob' :: localSample trends h vs) := by
    apply hCols_congr <;> intro a <;>
      simp only [List.map_append, List.map_cons, List.mem_append, List.mem_cons, hF', d1, d2, hd, s1, s2, hS]
  unfold IsHetFit hFit
  rw [hc]
  refine forall₂_congr fun c _ => ?_
  simp only [List.map_append, List.map_cons, List.sum_append, List.sum_cons, w1, w2, hw0, zero_mul]

/-- Three switchers in the same direction. -/
def exHetOne : List (HObs 1 ℚ) := [shockObs 4 2 1 0, shockObs 5 3 1 0, shockObs 9 3 1 1]

theorem exHetOne_rank : HFullRank exHetOne := by
  have hF : hLevels exHetOne HObs.F = {3} := by
    ext a
    unfold hLevels exHetOne
    simp only [Finset.mem_filter, List.mem_toFinset, Finset.mem_singleton, shockObs, List.map_cons, List.map_nil, List.mem_cons,
      List.not_mem_nil, or_false, exists_eq_or_imp, exists_eq_left]
    omega
  have hD : hLevels exHetOne HObs.dsq = ∅ := by
    ext a
    unfold hLevels exHetOne
    simp only [Finset.mem_filter, List.mem_toFinset, Finset.notMem_empty, iff_false, shockObs, List.map_cons, List.map_nil,
      List.mem_cons, List.not_mem_nil, or_false, exists_eq_or_imp, exists_eq_left, or_self]
    rintro ⟨rfl, h⟩
    exact lt_irrefl _ h
  have hS : hLevels exHetOne HObs.S = ∅ := by
    ext a
    unfold hLevels exHetOne
    simp only [Finset.mem_filter, List.mem_toFinset, Finset.notMem_empty, iff_false, shockObs, List.map_cons, List.map_nil,
      List.mem_cons, List.not_mem_nil, or_false, exists_eq_or_imp, exists_eq_left, or_self]
    omega
  intro a ha c hc
  have k : ∀ o ∈ exHetOne, a .const + a (.cov 0) * o.x 0 + a (.dF 3) * (if o.F = 3 then 1 else 0) = 0 := by
    intro o ho
    have hw : o.w ≠ 0 := by
      simp only [exHetOne, List.mem_cons, List.not_mem_nil, or_false] at ho
      rcases ho with rfl | rfl | rfl <;> exact one_ne_zero
    have := ha o ho hw
    rw [hFit_split, hF, hD, hS, Finset.sum_singleton, Finset.sum_empty, Finset.sum_empty, Fintype.sum_unique, add_zero,
      add_zero] at this
    exact this
  have k1 := k (shockObs 4 2 1 0) (by simp [exHetOne])
  have k2 := k (shockObs 5 3 1 0) (by simp [exHetOne])
  have k3 := k (shockObs 9 3 1 1) (by simp [exHetOne])
  simp [shockObs] at k1 k2 k3
  have hc' : c = .const ∨ (∃ j, c = .cov j) ∨ c = .dF 3 := by
    unfold hCols at hc
    rw [hF, hD, hS] at hc
    simp only [Finset.mem_union, Finset.mem_singleton, Finset.mem_image, Finset.image_empty, Finset.notMem_empty,
      Finset.mem_univ, true_and, or_false, exists_eq_left] at hc
    rcases hc with (h | ⟨j, h⟩) | h
    · exact Or.inl h
    · exact Or.inr (Or.inl ⟨j, h.symm⟩)
    · exact Or.inr (Or.inr h.symm)
  rcases hc' with rfl | ⟨j, rfl⟩ | rfl
  · linarith
  · rw [Subsingleton.elim j 0]; linarith
  · linarith

/-- The hypotheses of C195 hold, and the coefficient is the outcome difference within the date. -/
example (β : HCol 1 ℚ → ℚ) (hβ : IsHetFit exHetOne β) : β (.cov 0) = 4 := by
  refine C195_recovers exHetOne ?_ exHetOne_rank (fun _ => 4) (fun f => if f = 3 then 5 else 4) (fun _ => 0) (fun _ => 0) ?_ β hβ 0
  · intro o ho
    simp only [exHetOne, List.mem_cons, List.not_mem_nil, or_false] at ho
    rcases ho with rfl | rfl | rfl <;> exact zero_le_one
  · intro o ho
    simp only [exHetOne, List.mem_cons, List.not_mem_nil, or_false] at ho
    rcases ho with rfl | rfl | rfl <;> simp [shockObs]
    norm_num

example (shock : ℤ → ℚ) (β β' : HCol 1 ℚ → ℚ) (hβ : IsHetFit exHetOne β)
    (hβ' : IsHetFit (exHetOne.map (HObs.addY fun o => o.S * (shock (o.F - 1 + (2 : ℕ)) - shock (o.F - 1)))) β') :
    β' (.cov 0) = β (.cov 0) :=
  C195_common_shock exHetOne (fun o ho => by
    simp only [exHetOne, List.mem_cons, List.not_mem_nil, or_false] at ho
    rcases ho with rfl | rfl | rfl <;> exact zero_le_one) exHetOne_rank 2 1 (fun o ho => by
    simp only [exHetOne, List.mem_cons, List.not_mem_nil, or_false] at ho
    rcases ho with rfl | rfl | rfl <;> rfl) shock β β' hβ hβ' 0

/-- A unit observed before and after its switch, but not in its first row. -/
def exHetLate (y : ℚ) : HUnit 1 ℚ :=
  ⟨[⟨1, none, 0, fun _ => 2⟩, ⟨2, some 6, 1, fun _ => 2⟩, ⟨3, some y, 1, fun _ => 2⟩], ((3 : ℤ) : WithTop ℤ), 1, 0⟩

example (y y' : ℚ) (us vs : List (HUnit 1 ℚ)) (β : HCol 1 ℚ → ℚ) :
    IsHetFit (localSample false 1 (us ++ exHetLate y :: vs)) β ↔ IsHetFit (localSample false 1 (us ++ exHetLate y' :: vs)) β :=
  C196_weight_violated false 1 us vs (exHetLate y) (exHetLate y') ⟨1, none, 0, fun _ => 2⟩ _ _ rfl rfl (by simp [weightGt]) rfl rfl rfl
    ⟨1 * (y - 6), 0, fun _ => 2, 3, 0, 1⟩ ⟨1 * (y' - 6), 0, fun _ => 2, 3, 0, 1⟩ (by simp [localObs, exHetLate, meanAt, lastT])
    (by simp [localObs, exHetLate, meanAt, lastT]) β

end Verif.Inter
