import Verif.AttGt.Props
import Verif.AttGt.Props2
import Verif.Prep.Tensor
import Verif.DR.Props

set_option linter.unusedSectionVars false

/-!
# C73: end-to-end meaning of an `att_gt` estimate without covariates

Composition of preprocessing (`Verif.Prep`), the estimation loop (`Verif.AttGt`) and the two-period estimators
(`Verif.DR`): the number reported for a cohort and a period is the difference of weighted mean outcome changes written
down in the specification below in terms of the rows of the prepared panel.
-/

namespace Verif.AttGt

open Verif.Prep Verif.Panel

variable {ι β K : Type*}

/-! ## Specification: rows only -/

/-- Outcome of unit `u` in period `t` (the sum has exactly one term in a panel without duplicates). -/
def outcomeAt [DecidableEq ι] [AddCommMonoid K] (y : β → K) (df : List (Obs ι β)) (u : ι) (t : ℤ) : K :=
  ((df.filter fun r => decide (r.id = u ∧ r.t = t)).map fun r => y r.val.2).sum

/-- Weighted mean change of the outcome between periods `b` and `t` among the units whose cohort satisfies `S`. -/
def meanChange [DecidableEq ι] [Field K] (y w : β → K) (df : List (Obs ι β)) (S : WithTop ℤ → Bool) (t b : ℤ) : K :=
  ((df.filter fun r => decide (r.t = t) && S (cohort r)).map
      fun r => w r.val.2 * (y r.val.2 - outcomeAt y df r.id b)).sum /
    ((df.filter fun r => decide (r.t = t) && S (cohort r)).map fun r => w r.val.2).sum

/-- Cohort `g`. -/
def isCohort (g : ℤ) (c : WithTop ℤ) : Bool := decide (c = (g : WithTop ℤ))

/-- Documented comparison units of the cell (`g`, `t`) with base `b`: never treated, or not treated until after both
periods plus the anticipation window. -/
def isControl (cg : ControlGroup) (a g t b : ℤ) (c : WithTop ℤ) : Bool :=
  decide (c ≠ (g : WithTop ℤ)) && (match cg with
    | .neverTreated => decide (c = ⊤)
    | .notYetTreated => decide (((max t b + a : ℤ) : WithTop ℤ) < c))

/-- The documented base period of the cell: the last period before `g` net of anticipation, except that with a varying
base a pre-treatment cell uses the period before `t`. -/
def IsBaseFor (bp : BasePeriod) (periods : List ℤ) (a g t b : ℤ) : Prop :=
  match bp with
  | .universal => IsBase periods a g b ∧ t ≠ b
  | .varying => if g ≤ t then IsBase periods a g b else b ∈ periods ∧ b < t ∧ ∀ q ∈ periods, q < t → q ≤ b

/-! ## Glue -/

/-- `DIDData` built from the preprocessed frame, `builders.py` / `transformers.py:370-383`, `tensors.py:36-119`. -/
def dataOf [DecidableEq ι] (cg : ControlGroup) (a : ℤ) (y w : β → K) (out : List (Obs ι β)) : Data K where
  cg := cg
  anticip := a
  periods := periodsOf out
  groups := groupsOf out
  counts := cohortCounts (timeInvariant out)
  nUnits := idCount out
  outcomes := outcomesTensor y out
  weights := (timeInvariant out).map fun r => w r.val.2

/-- An estimator written on `Fin n`-indexed arrays. -/
abbrev FinEst (K : Type*) := ∀ n, (Fin n → K) → (Fin n → K) → (Fin n → Bool) → (Fin n → K) → Est K

/-- Pass list data to it (numpy arrays of equal length). -/
def onFin [Zero K] (F : FinEst K) : Estimator K := fun y1 y0 d w =>
  F d.length (fun i => y1.getD i 0) (fun i => y0.getD i 0) (fun i => d.getD i false) (fun i => w.getD i 0)

section
variable [Field K] [LinearOrder K] [IsStrictOrderedRing K]

/-- Every value the estimator returns is the 2x2 difference in mean changes. -/
def Sound (F : FinEst K) : Prop := ∀ n y1 y0 d w, DR.BothArms w d → ∀ att inf, F n y1 y0 d w = .val att inf →
  att = DR.did2x2 w d y1 y0

/-- `reg_did_panel` with an intercept, `compute_att_gt.py:352-354`. -/
def regEst (ols : ∀ n, DR.OLS (Fin n) Unit K) (infl : ∀ n, (Fin n → K) → List K) : FinEst K := fun n y1 y0 d w =>
  match DR.regDidPanel (ols n) y1 y0 d (fun _ _ => 1) w with
  | .error _ => .failed
  | .ok none => .nan
  | .ok (some a) => .val a (infl n w)

/-- `drdid_panel` with an intercept, `compute_att_gt.py:356-358`. -/
def drEst (ols : ∀ n, DR.OLS (Fin n) Unit K) (logit : ∀ n, DR.Logit (Fin n) Unit K) (lo hi level : K)
    (infl : ∀ n, (Fin n → K) → List K) : FinEst K := fun n y1 y0 d w =>
  match DR.drdidPanel (ols n) (logit n) lo hi level y1 y0 d (fun _ _ => 1) w with
  | .error _ => .failed
  | .ok a => .val a (infl n w)

/-- `std_ipw_did_panel` with an intercept, `compute_att_gt.py:347-350`. -/
def ipwEst (logit : ∀ n, DR.Logit (Fin n) Unit K) (lo hi level : K) (infl : ∀ n, (Fin n → K) → List K) : FinEst K :=
  fun n y1 y0 d w =>
  match DR.stdIpwDidPanel (logit n) lo hi level y1 y0 d (fun _ _ => 1) w with
  | .error _ => .failed
  | .ok none => .nan
  | .ok (some a) => .val a (infl n w)

/-- The regression routine solves intercept-only least squares. -/
def GoodOLS (ols : ∀ n, DR.OLS (Fin n) Unit K) : Prop := ∀ n w sel y, ∑ i with sel i = true, w i ≠ 0 →
  DR.NormalEq w sel (fun _ _ => 1) y (ols n w sel (fun _ _ => 1) y)

/-- The logit routine solves the intercept-only likelihood equation. -/
def GoodLogit (logit : ∀ n, DR.Logit (Fin n) Unit K) : Prop := ∀ n w d, ∑ i, w i ≠ 0 →
  (∃ p, logit n w d (fun _ _ => 1) = fun _ => p) ∧ DR.ScoreEq (κ := Unit) w d (fun _ _ => 1) (logit n w d (fun _ _ => 1))

theorem regEst_sound {ols : ∀ n, DR.OLS (Fin n) Unit K} (h : GoodOLS ols) (infl) : Sound (regEst ols infl) := by
  intro n y1 y0 d w hw att inf he
  unfold regEst at he
  rw [DR.C25_reg_no_covariates (ols n) y1 y0 d _ w (fun _ => rfl) hw (h n _ _ _ ?_)] at he
  · simp only [Est.val.injEq] at he; exact he.1.symm
  · have := hw.norm.control
    have e : (Finset.univ.filter fun i => DR.notB d i = true) = Finset.univ.filter fun i => d i = false := by
      ext i; simp [DR.notB]
    rw [e]; exact this.ne'

theorem drEst_sound {ols : ∀ n, DR.OLS (Fin n) Unit K} {logit : ∀ n, DR.Logit (Fin n) Unit K} {lo hi level : K}
    (h : GoodOLS ols) (hl : GoodLogit logit) (hlo : 0 < lo) (hhi : hi < 1) (hlh : lo ≤ hi) (infl) :
    Sound (drEst ols logit lo hi level infl) := by
  intro n y1 y0 d w hw att inf he
  have hsum : ∑ i, DR.normalize w i ≠ 0 := hw.norm.total.ne'
  obtain ⟨hp, hs⟩ := hl n _ d hsum
  unfold drEst at he
  by_cases hlev : min hi (max lo (DR.treatedShare w d)) < level
  · rw [DR.C25_dr_no_covariates (ols n) (logit n) lo hi level y1 y0 d _ w hlo hhi (fun _ => rfl) hw hlh (h n _ _ _ ?_)
      hp hs hlev] at he
    · simp only [Est.val.injEq] at he; exact he.1.symm
    · have := hw.norm.control
      have e : (Finset.univ.filter fun i => DR.notB d i = true) = Finset.univ.filter fun i => d i = false := by
        ext i; simp [DR.notB]
      rw [e]; exact this.ne'
  · rw [DR.C25_dr_all_trimmed (ols n) (logit n) lo hi level y1 y0 d _ w (fun _ => rfl) hw hp hs (not_lt.1 hlev)] at he
    simp at he

theorem ipwEst_sound {logit : ∀ n, DR.Logit (Fin n) Unit K} {lo hi level : K}
    (hl : GoodLogit logit) (hlo : 0 < lo) (hhi : hi < 1) (hlh : lo ≤ hi) (infl) :
    Sound (ipwEst logit lo hi level infl) := by
  intro n y1 y0 d w hw att inf he
  have hsum : ∑ i, DR.normalize w i ≠ 0 := hw.norm.total.ne'
  obtain ⟨hp, hs⟩ := hl n _ d hsum
  unfold ipwEst at he
  by_cases hlev : min hi (max lo (DR.treatedShare w d)) < level
  · rw [DR.C25_ipw_no_covariates (logit n) lo hi level y1 y0 d _ w hlo hhi (fun _ => rfl) hw hlh hp hs hlev] at he
    simp only [Est.val.injEq] at he; exact he.1.symm
  · exfalso
    obtain ⟨p, hp⟩ := hp
    have hc : DR.clip lo hi (logit n (DR.normalize w) d (fun _ _ => 1)) = fun _ => min hi (max lo p) := by
      funext i; unfold DR.clip; rw [hp]
    rw [hp] at hs
    have hps := DR.intercept_logit _ _ _ (fun _ => rfl) _ hs hsum
    rw [DR.share_normalize hw] at hps
    rw [← hps] at hlev
    have hz : DR.mean (DR.wCont d (DR.trim level d (fun _ => min hi (max lo p))) (fun _ => min hi (max lo p))
        (DR.normalize w)) = 0 := by
      rw [DR.wCont_const_trimmed (not_lt.1 hlev)]; simp [DR.mean]
    unfold DR.stdIpwDidPanel at he
    simp only [hc, hz, if_true] at he
    split_ifs at he

/-! ## Lists -/

theorem selectValid_map {α γ : Type*} (tid : List α) (ρ : α → Option Bool) (f : α → γ) :
    selectValid (tid.map ρ) (tid.map f) = (tid.filter fun r => (ρ r).isSome).map f := by
  unfold selectValid
  induction tid with
  | nil => rfl
  | cons r l ih =>
    simp only [List.map_cons, List.zip_cons_cons, List.filter_cons]
    by_cases h : (ρ r).isSome = true
    · simp only [h, if_true, List.map_cons, ih]
    · simp only [h, Bool.false_eq_true, if_false, ih]

theorem treatOf_map {α : Type*} (tid : List α) (ρ : α → Option Bool) :
    treatOf (tid.map ρ) = (tid.filter fun r => (ρ r).isSome).map fun r => (ρ r).getD false := by
  unfold treatOf
  induction tid with
  | nil => rfl
  | cons r l ih =>
    cases h : ρ r with
    | none =>
      rw [List.map_cons, h, List.filterMap_cons_none (by rfl), ih, List.filter_cons_of_neg (by simp [h])]
    | some b =>
      rw [List.map_cons, h, List.filterMap_cons_some (by rfl), ih, List.filter_cons_of_pos (by simp [h]),
        List.map_cons, h]
      rfl

theorem range_sum {α : Type*} (V : List α) (f : ℕ → K) (g : α → K)
    (h : ∀ i (hi : i < V.length), f i = g V[i]) : ∑ i ∈ Finset.range V.length, f i = (V.map g).sum := by
  induction V generalizing f with
  | nil => simp
  | cons a l ih =>
    rw [List.length_cons, Finset.sum_range_succ', List.map_cons, List.sum_cons, add_comm]
    congr 1
    · exact h 0 (by simp)
    · exact ih (fun i => f (i + 1)) fun i hi => h (i + 1) (by simpa using hi)

theorem sum_map_filter {α : Type*} (V : List α) (p : α → Bool) (g : α → K) :
    (V.map fun r => if p r then g r else 0).sum = ((V.filter p).map g).sum := by
  induction V with
  | nil => rfl
  | cons a l ih =>
    rw [List.map_cons, List.sum_cons, ih, List.filter_cons]
    cases h : p a <;> simp

/-- Sums over the array positions of one arm are sums over the units of that arm. -/
theorem arm_sum {α : Type*} (V : List α) (dd : α → Bool) (b : Bool) (G : Fin (V.map dd).length → K) (g : α → K)
    (hG : ∀ i, G i = g (V[(i : ℕ)]'(by have := i.2; simpa using this))) :
    ∑ i ∈ Finset.univ.filter (fun i : Fin (V.map dd).length => (V.map dd).getD i false = b), G i = ((V.filter fun r => dd r == b).map g).sum := by
  rw [Finset.sum_filter, ← sum_map_filter]
  rw [← range_sum V (fun i => (V[i]?.map fun r => if (dd r == b) = true then g r else 0).getD 0)]
  · rw [show V.length = (V.map dd).length by simp, ← Fin.sum_univ_eq_sum_range]
    refine Finset.sum_congr rfl fun i _ => ?_
    have hi : (i : ℕ) < V.length := by have := i.2; simpa using this
    rw [hG i]
    simp [hi]
  · intro i hi
    simp [hi]

/-! ## Panel rows -/

section Rows
variable [LinearOrder ι]

theorem filter_unique {α : Type*} (p : α → Bool) : ∀ (l : List α) (a : α), a ∈ l → p a = true →
    l.Pairwise (fun x y => ¬ (p x = true ∧ p y = true)) → l.filter p = [a]
  | [], a, h, _, _ => by simp at h
  | x :: l, a, h, ha, hp => by
    rw [List.pairwise_cons] at hp
    rcases List.mem_cons.1 h with rfl | h
    · rw [List.filter_cons_of_pos ha]
      congr 1
      rw [List.filter_eq_nil_iff]
      intro y hy hpy
      exact hp.1 y hy ⟨ha, hpy⟩
    · have hx : ¬ p x = true := fun hx => hp.1 a h ⟨hx, ha⟩
      rw [List.filter_cons_of_neg hx]
      exact filter_unique p l a h ha hp.2

theorem outcomeAt_eq (y : β → K) {df : List (Obs ι β)} (hn : NoDuplicates df) {r : Obs ι β} (hr : r ∈ df) :
    outcomeAt y df r.id r.t = y r.val.2 := by
  unfold outcomeAt
  rw [filter_unique _ df r hr (by simp)]
  · simp
  · refine hn.imp ?_
    intro a b hab h
    simp only [decide_eq_true_eq] at h
    exact hab ⟨h.1.1.trans h.2.1.symm, h.1.2.trans h.2.2.symm⟩

theorem outcomes_vec (y : β → K) {df : List (Obs ι β)} (hs : df.Pairwise leTGI) (hn : NoDuplicates df)
    (hb : Balanced df) (hc : CohortConstant df) {i : ℕ} {t : ℤ} (hi : (periodsOf df)[i]? = some t) :
    (outcomesTensor y df)[i]? = some ((timeInvariant df).map fun r => outcomeAt y df r.id t) := by
  obtain ⟨_, _, _, _, _, h⟩ := C18_outcomes_aligned y hs hn hb hc
  obtain ⟨hlt, rfl⟩ := List.getElem?_eq_some_iff.1 hi
  obtain ⟨v, hv, hl, hk⟩ := h i hlt
  rw [hv]
  congr 1
  apply List.ext_getElem?
  intro k
  by_cases hlt : k < (timeInvariant df).length
  · obtain ⟨r, hr, h1, h2, h3⟩ := hk k hlt
    rw [h3, List.getElem?_map, List.getElem?_eq_getElem hlt, Option.map_some, ← h1, ← h2, outcomeAt_eq y hn hr]
  · rw [List.getElem?_eq_none (by omega), List.getElem?_eq_none (by simp; omega)]

/-- Sums over the time-invariant table are sums over the rows of any one period. -/
theorem tid_sum {df : List (Obs ι β)} (hs : df.Pairwise leTGI) (hn : NoDuplicates df)
    (hb : Balanced df) (hc : CohortConstant df) {t : ℤ} (ht : IsPeriod df t) (S : WithTop ℤ → Bool) (g : ι → K) :
    (((timeInvariant df).filter fun r => S (cohort r)).map fun r => g r.id).sum =
      ((df.filter fun r => decide (r.t = t) && S (cohort r)).map fun r => g r.id).sum := by
  have key := timeInvariant_keys hs hn hb hc ht
  have e : ∀ l : List (Obs ι β), ((l.filter fun r => S (cohort r)).map fun r => g r.id).sum =
      (((l.map fun r => (cohort r, r.id)).filter fun p => S p.1).map fun p => g p.2).sum := by
    intro l
    rw [List.filter_map, List.map_map]; rfl
  rw [e, key, ← e]
  unfold block
  rw [List.filter_filter]
  congr 2
  apply List.filter_congr
  intro r _
  exact Bool.and_comm _ _

end Rows

/-! ## Base and comparison period of a cell -/

theorem periods_max {P : List ℤ} (hs : P.Pairwise (· < ·)) {i j : ℕ} {t b : ℤ} (hi : P[i]? = some t)
    (hj : P[j]? = some b) : P[max i j]? = some (max t b) := by
  obtain ⟨hi', rfl⟩ := List.getElem?_eq_some_iff.1 hi
  obtain ⟨hj', rfl⟩ := List.getElem?_eq_some_iff.1 hj
  rcases lt_trichotomy i j with h | rfl | h
  · have := List.pairwise_iff_getElem.1 hs i j hi' hj' h
    rw [max_eq_right h.le, max_eq_right this.le, hj]
  · simp [hi]
  · have := List.pairwise_iff_getElem.1 hs j i hj' hi' h
    rw [max_eq_left h.le, max_eq_left this.le, hi]

theorem periods_lt {P : List ℤ} (hs : P.Pairwise (· < ·)) {i j : ℕ} {t b : ℤ} (hi : P[i]? = some t)
    (hj : P[j]? = some b) (h : b < t) : j < i := by
  obtain ⟨hi', rfl⟩ := List.getElem?_eq_some_iff.1 hi
  obtain ⟨hj', rfl⟩ := List.getElem?_eq_some_iff.1 hj
  by_contra hc
  rcases Nat.lt_or_eq_of_le (not_lt.1 hc) with h2 | rfl
  · have := List.pairwise_iff_getElem.1 hs i j hi' hj' h2
    omega
  · omega

theorem plan_base {bp : BasePeriod} {P : List ℤ} (hs : P.Pairwise (· < ·)) {a g t : ℤ} (ha : 0 ≤ a) {i p : ℕ}
    (ht : P[i + timeFactor bp]? = some t) (h : planCell bp P a g i = some (.run p)) :
    ∃ b, P[p]? = some b ∧ IsBaseFor bp P a g t b ∧
      relevantPeriod P i p (timeFactor bp) a = some (max t b + a) := by
  cases bp with
  | universal =>
    simp only [timeFactor, Nat.add_zero] at ht
    rcases C21_universal hs a g t i ht with ⟨b, hb, hcase⟩ | ⟨_, he⟩
    · rcases hcase with ⟨_, he⟩ | ⟨hne, q, hq, he⟩
      · rw [he] at h; simp at h
      · rw [he] at h
        have : q = p := by simpa using h
        subst this
        refine ⟨b, hq, ⟨hb, hne⟩, ?_⟩
        unfold relevantPeriod
        rw [show max i q + timeFactor .universal = max i q from rfl, periods_max hs ht hq]; rfl
    · rw [he] at h; simp at h
  | varying =>
    by_cases hg : g ≤ t
    · rcases C21_varying_post hs a g t i ht hg with ⟨q, b, he, hq, hb⟩ | ⟨he, _⟩
      · rw [he] at h
        have : q = p := by simpa using h
        subst this
        have hbt : b < t := by have := hb.2.1; omega
        have hlt := periods_lt hs ht hq hbt
        refine ⟨b, hq, ?_, ?_⟩
        · unfold IsBaseFor; rw [if_pos hg]; exact hb
        · unfold relevantPeriod
          have : max i q = i := by
            have : timeFactor .varying = 1 := rfl
            omega
          rw [this, ht, max_eq_left hbt.le]; rfl
      · rw [he] at h; simp at h
    · obtain ⟨b, he, hb, hbt, hmax⟩ := C21_varying_pre hs a g t i ht (not_le.1 hg)
      rw [he] at h
      have : i = p := by simpa using h
      subst this
      refine ⟨b, hb, ?_, ?_⟩
      · unfold IsBaseFor; rw [if_neg hg]; exact ⟨List.mem_of_getElem? hb, hbt, hmax⟩
      · unfold relevantPeriod
        rw [max_self, ht, max_eq_left hbt.le]; rfl

/-- The units of one role, described by the specification's cohort predicates. -/
theorem role_true (cg : ControlGroup) (a g t b : ℤ) (c : WithTop ℤ) :
    (role cg (max t b + a) g c = some true ↔ isCohort g c = true) ∧
    (role cg (max t b + a) g c = some false ↔ isControl cg a g t b c = true) := by
  obtain ⟨h1, h2⟩ := C19_role_spec cg (max t b + a) g c
  rw [h1, h2]
  unfold isCohort isControl
  constructor
  · simp
  · cases cg
    · simp only [Bool.and_eq_true, decide_eq_true_eq, true_and, reduceCtorEq, false_and, or_false]
    · simp only [Bool.and_eq_true, decide_eq_true_eq, true_and, reduceCtorEq, false_and, false_or]

/-! ## The end-to-end statement -/

/-- What the loop does with a cell that has units in both arms: the arrays handed to the estimator have positive weight in
both arms and their 2x2 difference is the documented difference of mean changes. -/
theorem cell_eval [LinearOrder ι] (F : FinEst K) (bp : BasePeriod) (cg : ControlGroup) (a : ℤ)
    (ha : 0 ≤ a) (y w : β → K) (df out : List (Obs ι β)) (hnd : NoDuplicates df) (hbal : Balanced df)
    (hcc : CohortConstant df) (hout : pipeline cg a df = some out)
    (hwpos : ∀ r ∈ out, 0 < w r.val.2) (hwc : ∀ r ∈ out, ∀ s ∈ out, r.id = s.id → w r.val.2 = w s.val.2)
    (gi ti pre : ℕ) (g t rel : ℤ) (hg : (groupsOf out)[gi]? = some g) (hp : planCell bp (periodsOf out) a g ti = some (.run pre))
    (ht : (periodsOf out)[ti + timeFactor bp]? = some t) (hrel : relevantPeriod (periodsOf out) ti pre (timeFactor bp) a = some rel)
    (hboth : some true ∈ panelCohortIndex cg rel g (cohortCounts (timeInvariant out)) (idCount out) ∧
      some false ∈ panelCohortIndex cg rel g (cohortCounts (timeInvariant out)) (idCount out)) :
    ∃ b n y1 y0 d wv, IsPeriod out b ∧ IsBaseFor bp (periodsOf out) a g t b ∧
      (∃ r ∈ out, isCohort g (cohort r) = true) ∧ (∃ r ∈ out, isControl cg a g t b (cohort r) = true) ∧
      DR.BothArms wv d ∧
      DR.did2x2 wv d y1 y0 = meanChange y w out (isCohort g) t b - meanChange y w out (isControl cg a g t b) t b ∧
      runCell bp (onFin F) (dataOf cg a y w out) gi ti = (match F n y1 y0 d wv with
        | .failed => .none_
        | .nan => .nan
        | .val att inf => .val att (cellIF (panelCohortIndex cg rel g (cohortCounts (timeInvariant out)) (idCount out)) inf)) := by
  obtain ⟨_, _, _, _, hb, hn, hc, _⟩ := pipeline_balanced cg a df out hnd hbal hcc hout
  have hs : out.Pairwise leTGI := by
    unfold pipeline at hout
    obtain ⟨o, _, rfl⟩ := Option.map_eq_some_iff.1 hout
    exact sortTGI_pairwise o
  have hP := periodsOf_pairwise out
  obtain ⟨b, hbp, hbase, hrel'⟩ := plan_base hP ha ht hp
  obtain rfl : rel = max t b + a := by rw [hrel] at hrel'; exact Option.some.inj hrel'
  have hroles := (C19_pipeline_roles cg a df out hnd hbal hcc hout g ti pre (timeFactor bp) _ hrel).2
  simp only [hroles] at hboth ⊢
  have hrun : runCell bp (onFin F) (dataOf cg a y w out) gi ti =
      (match onFin F (((timeInvariant out).filter fun r => (role cg (max t b + a) g (cohort r)).isSome).map fun r => outcomeAt y out r.id t)
        (((timeInvariant out).filter fun r => (role cg (max t b + a) g (cohort r)).isSome).map fun r => outcomeAt y out r.id b)
        (((timeInvariant out).filter fun r => (role cg (max t b + a) g (cohort r)).isSome).map fun r => (role cg (max t b + a) g (cohort r)).getD false)
        (((timeInvariant out).filter fun r => (role cg (max t b + a) g (cohort r)).isSome).map fun r => w r.val.2) with
        | .failed => .none_
        | .nan => .nan
        | .val att inf => .val att (cellIF ((timeInvariant out).map fun r => role cg (max t b + a) g (cohort r)) inf)) := by
    unfold runCell
    simp only [dataOf, hg, hp, hrel, hroles]
    refine (if_pos hboth).trans ?_
    simp only [outcomes_vec y hs hn hb hc ht, outcomes_vec y hs hn hb hc hbp]
    rw [selectValid_map, selectValid_map, selectValid_map, treatOf_map]
    rfl
  have htper : IsPeriod out t := mem_periodsOf.1 (List.mem_of_getElem? ht)
  set tid := timeInvariant out with htid
  set ρ : Obs ι β → Option Bool := fun r => role cg (max t b + a) g (cohort r) with hρ
  set V := tid.filter fun r => (ρ r).isSome with hV
  set dd : Obs ι β → Bool := fun r => (ρ r).getD false with hdd
  set Y1 := fun r : Obs ι β => outcomeAt y out r.id t with hY1
  set Y0 := fun r : Obs ι β => outcomeAt y out r.id b with hY0
  set W := fun r : Obs ι β => w r.val.2 with hW
  set n := (V.map dd).length with hnl
  have hlen : n = V.length := by simp [hnl]
  -- arms
  have armT : (V.filter fun r => dd r == true) = tid.filter fun r => isCohort g (cohort r) := by
    rw [hV, List.filter_filter]
    apply List.filter_congr
    intro r _
    have h1 := (role_true cg a g t b (cohort r)).1
    rw [Bool.eq_iff_iff, ← h1]
    simp only [hdd, hρ]
    cases hr : role cg (max t b + a) g (cohort r) with
    | none => simp
    | some x => cases x <;> simp
  have armC : (V.filter fun r => dd r == false) = tid.filter fun r => isControl cg a g t b (cohort r) := by
    rw [hV, List.filter_filter]
    apply List.filter_congr
    intro r _
    have h1 := (role_true cg a g t b (cohort r)).2
    rw [Bool.eq_iff_iff, ← h1]
    simp only [hdd, hρ]
    cases hr : role cg (max t b + a) g (cohort r) with
    | none => simp
    | some x => cases x <;> simp
  -- array entries
  have ent : ∀ (f : Obs ι β → K) (i : Fin n), (V.map f).getD i 0 = f (V[(i:ℕ)]'(by have := i.2; omega)) := by
    intro f i
    have : (i : ℕ) < V.length := by have := i.2; omega
    simp [this]
  have mem_out : ∀ r ∈ tid, r ∈ out := fun r hr => mem_timeInvariant hr
  have sumW : ∀ x : Bool, ∑ i ∈ Finset.univ.filter (fun i : Fin n => (V.map dd).getD i false = x), (V.map W).getD i 0 =
      ((V.filter fun r => dd r == x).map W).sum := fun x => arm_sum V dd x _ W fun i => ent W i
  have sumWY : ∀ x : Bool, ∑ i ∈ Finset.univ.filter (fun i : Fin n => (V.map dd).getD i false = x),
      (V.map W).getD i 0 * ((V.map Y1).getD i 0 - (V.map Y0).getD i 0) =
      ((V.filter fun r => dd r == x).map fun r => W r * (Y1 r - Y0 r)).sum := fun x =>
    arm_sum V dd x _ (fun r => W r * (Y1 r - Y0 r)) fun i => by rw [ent W, ent Y1, ent Y0]
  have posW : ∀ x : Bool, (some x ∈ tid.map ρ) → 0 < ((V.filter fun r => dd r == x).map W).sum := by
    intro x hx
    obtain ⟨r, hr, hrx⟩ := List.mem_map.1 hx
    have hmem : r ∈ V.filter fun r => dd r == x := by
      rw [List.mem_filter, hV, List.mem_filter]
      refine ⟨⟨hr, by simp [hrx]⟩, by simp [hdd, hrx]⟩
    apply List.sum_pos
    · intro z hz
      obtain ⟨s, hs', rfl⟩ := List.mem_map.1 hz
      exact hwpos s (mem_out s (List.mem_filter.1 (List.mem_filter.1 hs').1).1)
    · intro he
      rw [List.map_eq_nil_iff] at he
      rw [he] at hmem
      simp at hmem
  have harms : DR.BothArms (fun i : Fin n => (V.map W).getD i 0) (fun i : Fin n => (V.map dd).getD i false) := by
    constructor
    · intro i
      have hi : (i : ℕ) < V.length := by have := i.2; omega
      simp only [ent W]
      exact (hwpos _ (mem_out _ (List.mem_filter.1 (List.getElem_mem hi)).1)).le
    · rw [sumW true]; exact posW true hboth.1
    · rw [sumW false]; exact posW false hboth.2
  refine ⟨b, n, fun i => (V.map Y1).getD i 0, fun i => (V.map Y0).getD i 0, fun i => (V.map dd).getD i false,
    fun i => (V.map W).getD i 0, mem_periodsOf.1 (List.mem_of_getElem? hbp), hbase, ?_, ?_, harms, ?_, ?_⟩
  · obtain ⟨r, hr, hrx⟩ := List.mem_map.1 hboth.1
    exact ⟨r, mem_out r hr, ((role_true cg a g t b (cohort r)).1).1 hrx⟩
  · obtain ⟨r, hr, hrx⟩ := List.mem_map.1 hboth.2
    exact ⟨r, mem_out r hr, ((role_true cg a g t b (cohort r)).2).1 hrx⟩
  rotate_left
  · exact hrun
  unfold DR.did2x2 DR.wavg
  rw [sumW true, sumW false, sumWY true, sumWY false, armT, armC]
  -- from units to rows of period `t`
  have toRows : ∀ S : WithTop ℤ → Bool,
      ((tid.filter fun r => S (cohort r)).map fun r => W r * (Y1 r - Y0 r)).sum /
        ((tid.filter fun r => S (cohort r)).map W).sum = meanChange y w out S t b := by
    intro S
    have wOf : ∀ r ∈ out, w r.val.2 = outcomeAt w out r.id t := by
      intro r hr
      obtain ⟨s, hs1, hs2, hs3⟩ := hb r.id ⟨r, hr, rfl⟩ t htper
      rw [hwc r hr s hs1 hs2.symm, ← outcomeAt_eq w hn hs1, hs2, hs3]
    have e1 : ((tid.filter fun r => S (cohort r)).map fun r => W r * (Y1 r - Y0 r)).sum =
        ((tid.filter fun r => S (cohort r)).map fun r =>
          (fun u => outcomeAt w out u t * (outcomeAt y out u t - outcomeAt y out u b)) r.id).sum := by
      congr 1
      apply List.map_congr_left
      intro r hr
      rw [hW]
      simp only
      rw [wOf r (mem_out r (List.mem_filter.1 hr).1)]
    have e2 : ((tid.filter fun r => S (cohort r)).map W).sum =
        ((tid.filter fun r => S (cohort r)).map fun r => (fun u => outcomeAt w out u t) r.id).sum := by
      congr 1
      apply List.map_congr_left
      intro r hr
      exact wOf r (mem_out r (List.mem_filter.1 hr).1)
    rw [e1, e2, htid, tid_sum hs hn hb hc htper S
      (fun u => outcomeAt w out u t * (outcomeAt y out u t - outcomeAt y out u b)),
      tid_sum hs hn hb hc htper S (fun u => outcomeAt w out u t)]
    unfold meanChange
    congr 2
    · apply List.map_congr_left
      intro r hr
      have hr' := List.mem_filter.1 hr
      simp only [Bool.and_eq_true, decide_eq_true_eq] at hr'
      have h3 := outcomeAt_eq y hn hr'.1
      rw [hr'.2.1] at h3
      rw [← wOf r hr'.1, h3]
    · apply List.map_congr_left
      intro r hr
      exact (wOf r (List.mem_filter.1 hr).1).symm
  rw [toRows, toRows]

/-- **C73.** Run the preprocessing pipeline on any balanced panel without duplicates and with unit-constant cohorts and
positive unit-constant weights, then the estimation loop with an estimator that is sound for 2x2 designs. Every value
the loop obtains for cohort `g` and period `t` is the weighted mean change from the documented base period to `t` of
cohort `g`, minus that of the documented comparison group. -/
theorem C73_cell_is_did [LinearOrder ι] (F : FinEst K) (hF : Sound F) (bp : BasePeriod) (cg : ControlGroup) (a : ℤ)
    (ha : 0 ≤ a) (y w : β → K) (df out : List (Obs ι β)) (hnd : NoDuplicates df) (hbal : Balanced df)
    (hcc : CohortConstant df) (hout : pipeline cg a df = some out)
    (hwpos : ∀ r ∈ out, 0 < w r.val.2) (hwc : ∀ r ∈ out, ∀ s ∈ out, r.id = s.id → w r.val.2 = w s.val.2)
    (gi ti : ℕ) (att : K) (inf : List K) (h : runCell bp (onFin F) (dataOf cg a y w out) gi ti = .val att inf) :
    ∃ g t b, (groupsOf out)[gi]? = some g ∧ (periodsOf out)[ti + timeFactor bp]? = some t ∧
      IsPeriod out b ∧ IsBaseFor bp (periodsOf out) a g t b ∧
      (∃ r ∈ out, isCohort g (cohort r) = true) ∧ (∃ r ∈ out, isControl cg a g t b (cohort r) = true) ∧
      att = meanChange y w out (isCohort g) t b - meanChange y w out (isControl cg a g t b) t b := by
  have h' := h
  unfold runCell at h
  simp only [dataOf] at h
  cases hg : (groupsOf out)[gi]? with
  | none => rw [hg] at h; simp at h
  | some g =>
  rw [hg] at h
  simp only at h
  cases hp : planCell bp (periodsOf out) a g ti with
  | none => rw [hp] at h; simp at h
  | some pl =>
  rw [hp] at h
  cases pl with
  | skip => simp at h
  | typeError => simp at h
  | run pre =>
  simp only at h
  cases ht : (periodsOf out)[ti + timeFactor bp]? with
  | none =>
    unfold planCell at hp
    rw [ht] at hp; simp at hp
  | some t =>
  cases hrel : relevantPeriod (periodsOf out) ti pre (timeFactor bp) a with
  | none => rw [hrel] at h; simp at h
  | some rel =>
  rw [hrel] at h
  simp only at h
  by_cases hboth : some true ∈ panelCohortIndex cg rel g (cohortCounts (timeInvariant out)) (idCount out) ∧
      some false ∈ panelCohortIndex cg rel g (cohortCounts (timeInvariant out)) (idCount out)
  swap
  · exact absurd ((if_neg hboth).symm.trans h) (by simp)
  obtain ⟨b, n, y1, y0, d, wv, h1, h2, h3, h4, harms, hdid, hrun⟩ := cell_eval F bp cg a ha y w df out hnd hbal hcc hout hwpos hwc
    gi ti pre g t rel hg hp ht hrel hboth
  refine ⟨g, t, b, rfl, rfl, h1, h2, h3, h4, ?_⟩
  rw [hrun] at h'
  cases hest : F n y1 y0 d wv with
  | failed => rw [hest] at h'; simp at h'
  | nan => rw [hest] at h'; simp at h'
  | val att' inf' =>
  rw [hest] at h'
  simp only [CellRun.val.injEq] at h'
  rw [← h'.1, hF n _ _ _ _ harms att' inf' hest, hdid]

/-- **C73, whole run.** Every entry of the table of estimates produced with a varying base is the documented difference
of mean changes, labelled with its own cohort and period, unless the estimator returned NaN for its cell. -/
theorem C73_table [LinearOrder ι] (F : FinEst K) (hF : Sound F) (cg : ControlGroup) (a : ℤ)
    (ha : 0 ≤ a) (y w : β → K) (df out : List (Obs ι β)) (hnd : NoDuplicates df) (hbal : Balanced df)
    (hcc : CohortConstant df) (hout : pipeline cg a df = some out)
    (hwpos : ∀ r ∈ out, 0 < w r.val.2) (hwc : ∀ r ∈ out, ∀ s ∈ out, r.id = s.id → w r.val.2 = w s.val.2)
    (atts : List (ATTgt K)) (ifs : List (List K))
    (h : computeAttGt .varying (onFin F) (dataOf cg a y w out) = some (atts, ifs)) :
    ∀ e ∈ atts,
      (∃ b, IsPeriod out b ∧ IsBaseFor .varying (periodsOf out) a e.group e.year b ∧
        e.att = meanChange y w out (isCohort e.group) e.year b -
          meanChange y w out (isControl cg a e.group e.year b) e.year b) ∨
      (e.att = 0 ∧ ∃ c : ℕ × ℕ, (groupsOf out)[c.1]? = some e.group ∧ (periodsOf out)[c.2 + 1]? = some e.year ∧
        runCell .varying (onFin F) (dataOf cg a y w out) c.1 c.2 = .nan) := by
  obtain ⟨sub, _, _, hl, _, hk, _⟩ := C22_results_aligned _ _ _ _ _ h
  intro e he
  obtain ⟨k, hk', rfl⟩ := List.getElem_of_mem he
  obtain ⟨x, f, hproc, hx, _, hgrp, hyr⟩ := hk k (by omega)
  have hxe : x = atts[k] := by
    rw [List.getElem?_eq_getElem hk'] at hx
    exact (Option.some.inj hx).symm
  subst hxe
  unfold processCell at hproc
  simp only [hgrp, hyr] at hproc
  cases hr : runCell .varying (onFin F) (dataOf cg a y w out) sub[k].1 sub[k].2 with
  | typeError => rw [hr] at hproc; simp at hproc
  | none_ => rw [hr] at hproc; simp at hproc
  | nan =>
    rw [hr] at hproc
    right
    simp only [Option.some.injEq, Prod.mk.injEq] at hproc
    exact ⟨by rw [← hproc.1], sub[k], hgrp, hyr, hr⟩
  | val att inf =>
    rw [hr] at hproc
    left
    simp only [Option.some.injEq, Prod.mk.injEq] at hproc
    obtain ⟨g, t, b, hg, ht, hb, hbase, _, _, hatt⟩ := C73_cell_is_did F hF .varying cg a ha y w df out hnd hbal hcc hout
      hwpos hwc _ _ att inf hr
    have h1 : g = atts[k].group := by
      have : (groupsOf out)[sub[k].1]? = some atts[k].group := hgrp
      rw [hg] at this; exact Option.some.inj this
    have h2 : t = atts[k].year := by
      have : (periodsOf out)[sub[k].2 + timeFactor .varying]? = some atts[k].year := hyr
      rw [ht] at this; exact Option.some.inj this
    subst h1 h2
    have h3 : atts[k].att = att := by rw [← hproc.1]
    exact ⟨b, hb, hbase, by rw [h3]; exact hatt⟩

end

/-! ## A run of the whole chain -/

/-- Weighted-mean regression routine and treated-share logit routine over `ℚ`. -/
def meanOLS (n : ℕ) : DR.OLS (Fin n) Unit ℚ := fun w sel _ y _ =>
  (∑ i with sel i = true, w i * y i) / ∑ i with sel i = true, w i
def shareLogit (n : ℕ) : DR.Logit (Fin n) Unit ℚ := fun w d _ _ => (∑ i with d i = true, w i) / ∑ i, w i

theorem meanOLS_good : GoodOLS meanOLS := by
  intro n w sel y hw k
  simp only [meanOLS, one_mul, mul_one, Finset.univ_unique, Finset.sum_singleton, mul_sub, Finset.sum_sub_distrib,
    ← Finset.sum_mul]
  rw [mul_div_cancel₀ _ hw, sub_self]

theorem shareLogit_good : GoodLogit shareLogit := by
  intro n w d hw
  refine ⟨⟨_, rfl⟩, fun k => ?_⟩
  simp only [shareLogit, mul_one, mul_sub, Finset.sum_sub_distrib, ← Finset.sum_mul, mul_ite, mul_zero]
  rw [mul_div_cancel₀ _ hw, Finset.sum_filter, sub_self]

/-- Four units, three periods, cohorts 2, 3 and never treated; payload is (outcome, weight). -/
def exPanel : List (Obs ℕ (ℚ × ℚ)) :=
  [⟨1, 1, (2, (1, 1))⟩, ⟨1, 2, (2, (5, 1))⟩, ⟨1, 3, (2, (7, 1))⟩,
   ⟨2, 1, (3, (2, 2))⟩, ⟨2, 2, (3, (3, 2))⟩, ⟨2, 3, (3, (9, 2))⟩,
   ⟨3, 1, (0, (0, 1))⟩, ⟨3, 2, (0, (1, 1))⟩, ⟨3, 3, (0, (2, 1))⟩,
   ⟨4, 1, (0, (4, 3))⟩, ⟨4, 2, (0, (4, 3))⟩, ⟨4, 3, (0, (8, 3))⟩]

def exOut : List (Obs ℕ (ℚ × ℚ)) := 
  [⟨1, 1, (some 2, (1, 1))⟩, ⟨2, 1, (some 3, (2, 2))⟩, ⟨3, 1, (none, (0, 1))⟩, ⟨4, 1, (none, (4, 3))⟩,
   ⟨1, 2, (some 2, (5, 1))⟩, ⟨2, 2, (some 3, (3, 2))⟩, ⟨3, 2, (none, (1, 1))⟩, ⟨4, 2, (none, (4, 3))⟩,
   ⟨1, 3, (some 2, (7, 1))⟩, ⟨2, 3, (some 3, (9, 2))⟩, ⟨3, 3, (none, (2, 1))⟩, ⟨4, 3, (none, (8, 3))⟩]

theorem exOut_eq : pipeline .notYetTreated 0 exPanel = some exOut := by decide +kernel


def exRun : Option (List (ATTgt ℚ) × List (List ℚ)) :=
  computeAttGt .varying (onFin (regEst meanOLS fun _ _ => [])) (dataOf .notYetTreated 0 Prod.fst Prod.snd exOut)

/-- The run succeeds with four estimates. -/
example : exRun.map (fun r => r.1.map fun e => (e.att, e.group, e.year)) =
    some [(7/2, 2, 2), (5/2, 2, 3), (3/4, 3, 2), (11/4, 3, 3)] := by decide +kernel

example : ∀ r ∈ exRun, ∀ e ∈ r.1, (∃ b, IsPeriod exOut b ∧ IsBaseFor .varying (periodsOf exOut) 0 e.group e.year b ∧
        e.att = meanChange Prod.fst Prod.snd exOut (isCohort e.group) e.year b -
          meanChange Prod.fst Prod.snd exOut (isControl .notYetTreated 0 e.group e.year b) e.year b) ∨
      (e.att = 0 ∧ ∃ c : ℕ × ℕ, (groupsOf exOut)[c.1]? = some e.group ∧ (periodsOf exOut)[c.2 + 1]? = some e.year ∧
        runCell .varying (onFin (regEst meanOLS fun _ _ => [])) (dataOf .notYetTreated 0 Prod.fst Prod.snd exOut) c.1 c.2 = .nan) := by
  intro r hr
  refine C73_table _ (regEst_sound meanOLS_good _) .notYetTreated 0 le_rfl Prod.fst Prod.snd exPanel exOut ?_ ?_ ?_
    exOut_eq ?_ ?_ r.1 r.2 hr
  · unfold NoDuplicates; decide +kernel
  · rintro u ⟨s, hs, rfl⟩ t ⟨s', hs', rfl⟩
    revert s s'
    unfold Observed
    decide +kernel
  · unfold CohortConstant; decide +kernel
  · decide +kernel
  · decide +kernel

end Verif.AttGt
