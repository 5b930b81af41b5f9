import Verif.AttGt.Capstone
import Mathlib.MeasureTheory.Integral.Bochner.Basic
import Mathlib.MeasureTheory.Measure.Typeclasses.Probability

set_option linter.unusedSectionVars false
set_option linter.unusedSimpArgs false

/-!
# C249: what `att_gt` estimates on average

The rows of the panel (units, periods, cohorts, weights) are fixed, the outcomes are random.  `y ω v` is the outcome in the row with
payload `v`, `y0 ω v` the outcome the same row would have had without treatment.
-/

namespace Verif.Ident

open Verif.AttGt Verif.Prep Verif.Panel MeasureTheory

variable {ι β Ω : Type*} [LinearOrder ι] [MeasurableSpace Ω]

/-! ## Specification -/

/-- Expected outcome of a row. -/
noncomputable def expected (P : Measure Ω) (y : Ω → β → ℝ) (v : β) : ℝ := ∫ ω, y ω v ∂P

/-- Weighted mean expected effect of treatment on the rows of cohort `g` in period `t`. -/
noncomputable def meanEffect (P : Measure Ω) (y y0 : Ω → β → ℝ) (w : β → ℝ) (df : List (Obs ι β)) (g t : ℤ) : ℝ :=
  ((df.filter fun r => decide (r.t = t ∧ cohort r = (g : WithTop ℤ))).map
      fun r => w r.val.2 * (expected P y r.val.2 - expected P y0 r.val.2)).sum /
    ((df.filter fun r => decide (r.t = t ∧ cohort r = (g : WithTop ℤ))).map fun r => w r.val.2).sum

/-- The identifying assumptions: outcomes have means; before the anticipation window of its cohort opens a row has its untreated mean outcome; the
mean untreated outcome follows the same trend in every cohort (never-treated units are the cohort `⊤`). -/
structure Assumptions (P : Measure Ω) (a : ℤ) (y y0 : Ω → β → ℝ) (w : β → ℝ) (df : List (Obs ι β)) (trend : ℤ → ℝ) : Prop where
  int : ∀ r ∈ df, Integrable (fun ω => y ω r.val.2) P
  noAnticipation : ∀ r ∈ df, ((r.t + a : ℤ) : WithTop ℤ) < cohort r → expected P y r.val.2 = expected P y0 r.val.2
  parallel : ∀ c t b, (∃ r ∈ df, cohort r = c) → IsPeriod df t → IsPeriod df b →
    meanChange (expected P y0) w df (fun c' => decide (c' = c)) t b = trend t - trend b

/-! ## Lemmas -/

theorem list_integral {α : Type*} (P : Measure Ω) (l : List α) (f : Ω → α → ℝ) (h : ∀ r ∈ l, Integrable (fun ω => f ω r) P) :
    Integrable (fun ω => (l.map (f ω)).sum) P ∧ ∫ ω, (l.map (f ω)).sum ∂P = (l.map fun r => ∫ ω, f ω r ∂P).sum := by
  induction l with
  | nil => simp
  | cons a l ih =>
    obtain ⟨h1, h2⟩ := ih fun r hr => h r (List.mem_cons_of_mem _ hr)
    have ha := h a (List.mem_cons_self ..)
    simp only [List.map_cons, List.sum_cons]
    exact ⟨ha.add h1, by rw [integral_add ha h1, h2]⟩

theorem outcomeAt_integral (P : Measure Ω) (y : Ω → β → ℝ) (df : List (Obs ι β)) (h : ∀ r ∈ df, Integrable (fun ω => y ω r.val.2) P)
    (u : ι) (t : ℤ) : Integrable (fun ω => outcomeAt (y ω) df u t) P ∧
      ∫ ω, outcomeAt (y ω) df u t ∂P = outcomeAt (expected P y) df u t :=
  list_integral P _ (fun ω (r : Obs ι β) => y ω r.val.2) fun r hr => h r (List.mem_filter.1 hr).1

theorem meanChange_integral (P : Measure Ω) (y : Ω → β → ℝ) (w : β → ℝ) (df : List (Obs ι β))
    (h : ∀ r ∈ df, Integrable (fun ω => y ω r.val.2) P) (S : WithTop ℤ → Bool) (t b : ℤ) :
    Integrable (fun ω => meanChange (y ω) w df S t b) P ∧
      ∫ ω, meanChange (y ω) w df S t b ∂P = meanChange (expected P y) w df S t b := by
  unfold meanChange
  have key := list_integral P (df.filter fun r => decide (r.t = t) && S (cohort r))
    (fun ω (r : Obs ι β) => w r.val.2 * (y ω r.val.2 - outcomeAt (y ω) df r.id b)) fun r hr =>
      ((h r (List.mem_filter.1 hr).1).sub (outcomeAt_integral P y df h r.id b).1).const_mul _
  refine ⟨key.1.div_const _, ?_⟩
  rw [integral_div, key.2]
  congr 2
  apply List.map_congr_left
  intro r hr
  have h1 := h r (List.mem_filter.1 hr).1
  obtain ⟨h2, h3⟩ := outcomeAt_integral P y df h r.id b
  rw [integral_const_mul, integral_sub h1 h2, h3]
  rfl

/-- A sum over a list is the sum over the classes of a key. -/
theorem sum_by_key {α κ : Type*} [DecidableEq κ] (l : List α) (key : α → κ) (f : α → ℝ)
    (h : ∀ c, (∃ r ∈ l, key r = c) → ((l.filter fun r => decide (key r = c)).map f).sum = 0) : (l.map f).sum = 0 := by
  have gen : ∀ (l : List α) (T : Finset κ), (∀ r ∈ l, key r ∈ T) →
      (l.map f).sum = ∑ c ∈ T, ((l.filter fun r => decide (key r = c)).map f).sum := by
    intro l T
    induction l with
    | nil => simp
    | cons a l ih =>
      intro hT
      rw [List.map_cons, List.sum_cons, ih fun r hr => hT r (List.mem_cons_of_mem _ hr)]
      have : ∀ c, (((a :: l).filter fun r => decide (key r = c)).map f).sum =
          (if key a = c then f a else 0) + ((l.filter fun r => decide (key r = c)).map f).sum := by
        intro c
        rw [List.filter_cons]
        by_cases hc : key a = c <;> simp [hc]
      simp only [this]
      rw [Finset.sum_add_distrib, Finset.sum_ite_eq, if_pos (hT a (List.mem_cons_self ..))]
  rw [gen l (l.map key).toFinset fun r hr => by simp; exact ⟨r, hr, rfl⟩]
  refine Finset.sum_eq_zero fun c hc => h c ?_
  simpa using hc

theorem sum_sub_list {α : Type*} (l : List α) (f g : α → ℝ) : (l.map fun r => f r - g r).sum = (l.map f).sum - (l.map g).sum := by
  induction l with
  | nil => simp
  | cons a l ih => simp only [List.map_cons, List.sum_cons, ih]; ring

theorem sum_mul_list {α : Type*} (l : List α) (f : α → ℝ) (c : ℝ) : (l.map fun r => f r * c).sum = (l.map f).sum * c := by
  induction l with
  | nil => simp
  | cons a l ih => simp only [List.map_cons, List.sum_cons, ih]; ring

theorem sum_pos_filter (w : β → ℝ) (df : List (Obs ι β)) (hw : ∀ r ∈ df, 0 < w r.val.2) (q : Obs ι β → Bool) (h : ∃ r ∈ df, q r = true) :
    0 < ((df.filter q).map fun r => w r.val.2).sum := by
  obtain ⟨r, hr, hq⟩ := h
  apply List.sum_pos
  · intro z hz
    obtain ⟨s, hs, rfl⟩ := List.mem_map.1 hz
    exact hw s (List.mem_filter.1 hs).1
  · intro he
    rw [List.map_eq_nil_iff] at he
    have : r ∈ df.filter q := List.mem_filter.2 ⟨hr, hq⟩
    rw [he] at this
    simp at this

/-- Equal trends in all cohorts are equal trends in all unions of cohorts. -/
theorem parallel_union (mu w : β → ℝ) (df : List (Obs ι β)) (hw : ∀ r ∈ df, 0 < w r.val.2) (hb : Balanced df) (hc : CohortConstant df)
    (τ : ℝ) (t b : ℤ) (ht : IsPeriod df t)
    (hpar : ∀ c, (∃ r ∈ df, cohort r = c) → meanChange mu w df (fun c' => decide (c' = c)) t b = τ)
    (S : WithTop ℤ → Bool) (hS : ∃ r ∈ df, S (cohort r) = true) : meanChange mu w df S t b = τ := by
  have present : ∀ q : WithTop ℤ → Bool, (∃ r ∈ df, q (cohort r) = true) → ∃ r ∈ df, (decide (r.t = t) && q (cohort r)) = true := by
    rintro q ⟨r, hr, hq⟩
    obtain ⟨s, hs, h1, h2⟩ := hb r.id ⟨r, hr, rfl⟩ t ht
    refine ⟨s, hs, ?_⟩
    rw [hc s hs r hr h1, h2, hq]
    simp
  have hden := sum_pos_filter w df hw _ (present S hS)
  unfold meanChange
  rw [div_eq_iff hden.ne', ← sub_eq_zero, mul_comm, ← sum_mul_list, ← sum_sub_list]
  refine sum_by_key _ cohort _ ?_
  rintro c ⟨r, hr, rfl⟩
  have hr' := List.mem_filter.1 hr
  simp only [Bool.and_eq_true, decide_eq_true_eq] at hr'
  have hfil : (df.filter fun s => decide (s.t = t) && S (cohort s)).filter (fun s => decide (cohort s = cohort r)) =
      df.filter fun s => decide (s.t = t) && decide (cohort s = cohort r) := by
    rw [List.filter_filter]
    apply List.filter_congr
    intro s _
    by_cases h : cohort s = cohort r
    · simp [h, hr'.2.2]
    · simp [h]
  rw [hfil, sum_sub_list, sum_mul_list, sub_eq_zero]
  have h := hpar (cohort r) ⟨r, hr'.1, rfl⟩
  unfold meanChange at h
  rw [div_eq_iff (sum_pos_filter w df hw _ (present (fun c' => decide (c' = cohort r)) ⟨r, hr'.1, by simp⟩)).ne', mul_comm τ] at h
  exact h

/-- Untreated means made of a unit effect and a period effect have parallel trends. -/
theorem additive_trend (mu : β → ℝ) (u : ι → ℝ) (τ : ℤ → ℝ) (w : β → ℝ) (df : List (Obs ι β)) (hw : ∀ r ∈ df, 0 < w r.val.2)
    (hn : NoDuplicates df) (hb : Balanced df) (hmu : ∀ r ∈ df, mu r.val.2 = u r.id + τ r.t) (S : WithTop ℤ → Bool) (t b : ℤ)
    (ht : IsPeriod df t) (hbp : IsPeriod df b) (hS : ∃ r ∈ df, (decide (r.t = t) && S (cohort r)) = true) :
    meanChange mu w df S t b = τ t - τ b := by
  unfold meanChange
  rw [div_eq_iff (sum_pos_filter w df hw _ hS).ne', mul_comm, ← sum_mul_list]
  congr 1
  apply List.map_congr_left
  intro r hr
  have hr' := List.mem_filter.1 hr
  simp only [Bool.and_eq_true, decide_eq_true_eq] at hr'
  obtain ⟨s, hs, h1, h2⟩ := hb r.id ⟨r, hr'.1, rfl⟩ b hbp
  rw [← h1, ← h2, outcomeAt_eq mu hn hs, hmu r hr'.1, hmu s hs, hr'.2.1, h2, h1]
  ring

/-- Mean level of a row quantity in cohort `g` and period `t`. -/
theorem meanChange_levels (f w : β → ℝ) (df : List (Obs ι β)) (hn : NoDuplicates df) (hb : Balanced df) (hc : CohortConstant df)
    (hs : df.Pairwise leTGI) (hwc : ∀ r ∈ df, ∀ s ∈ df, r.id = s.id → w r.val.2 = w s.val.2) (S : WithTop ℤ → Bool) (t b : ℤ)
    (ht : IsPeriod df t) (hbp : IsPeriod df b) :
    meanChange f w df S t b =
      ((df.filter fun r => decide (r.t = t) && S (cohort r)).map fun r => w r.val.2 * f r.val.2).sum /
        ((df.filter fun r => decide (r.t = t) && S (cohort r)).map fun r => w r.val.2).sum -
      ((df.filter fun r => decide (r.t = b) && S (cohort r)).map fun r => w r.val.2 * f r.val.2).sum /
        ((df.filter fun r => decide (r.t = b) && S (cohort r)).map fun r => w r.val.2).sum := by
  have wOf : ∀ p, IsPeriod df p → ∀ r ∈ df, w r.val.2 = outcomeAt w df r.id p := by
    intro p hp r hr
    obtain ⟨s, hs1, hs2, hs3⟩ := hb r.id ⟨r, hr, rfl⟩ p hp
    rw [hwc r hr s hs1 hs2.symm, ← outcomeAt_eq w hn hs1, hs2, hs3]
  have at_ : ∀ p (r : Obs ι β), r ∈ df.filter (fun r => decide (r.t = p) && S (cohort r)) → r ∈ df ∧ f r.val.2 = outcomeAt f df r.id p := by
    intro p r hr
    have hr' := List.mem_filter.1 hr
    simp only [Bool.and_eq_true, decide_eq_true_eq] at hr'
    exact ⟨hr'.1, by rw [← hr'.2.1, outcomeAt_eq f hn hr'.1]⟩
  have move : ∀ g : ι → ℝ, ((df.filter fun r => decide (r.t = b) && S (cohort r)).map fun r => g r.id).sum =
      ((df.filter fun r => decide (r.t = t) && S (cohort r)).map fun r => g r.id).sum := by
    intro g
    rw [← tid_sum hs hn hb hc hbp S g, tid_sum hs hn hb hc ht S g]
  have e1 : ((df.filter fun r => decide (r.t = b) && S (cohort r)).map fun r => w r.val.2 * f r.val.2).sum =
      ((df.filter fun r => decide (r.t = t) && S (cohort r)).map fun r => w r.val.2 * outcomeAt f df r.id b).sum := by
    have := move fun u => outcomeAt w df u t * outcomeAt f df u b
    refine Eq.trans ?_ (this.trans ?_)
    · congr 1
      apply List.map_congr_left
      intro r hr
      rw [(at_ b r hr).2, wOf t ht r (at_ b r hr).1]
    · congr 1
      apply List.map_congr_left
      intro r hr
      rw [wOf t ht r (at_ t r hr).1]
  have e2 : ((df.filter fun r => decide (r.t = b) && S (cohort r)).map fun r => w r.val.2).sum =
      ((df.filter fun r => decide (r.t = t) && S (cohort r)).map fun r => w r.val.2).sum := by
    refine Eq.trans ?_ ((move fun u => outcomeAt w df u t).trans ?_)
    · congr 1
      apply List.map_congr_left
      intro r hr
      exact wOf t ht r (at_ b r hr).1
    · congr 1
      apply List.map_congr_left
      intro r hr
      exact (wOf t ht r (at_ t r hr).1).symm
  rw [e1, e2, ← sub_div, ← sum_sub_list]
  unfold meanChange
  congr 2
  apply List.map_congr_left
  intro r _
  ring

theorem base_unique {bp : BasePeriod} {P : List ℤ} {a g t b b' : ℤ} (h : IsBaseFor bp P a g t b) (h' : IsBaseFor bp P a g t b') : b = b' := by
  unfold IsBaseFor at h h'
  cases bp with
  | universal => exact le_antisymm (h'.1.2.2 b h.1.1 h.1.2.1) (h.1.2.2 b' h'.1.1 h'.1.2.1)
  | varying =>
    simp only at h h'
    split_ifs at h h'
    · exact le_antisymm (h'.2.2 b h.1 h.2.1) (h.2.2 b' h'.1 h'.2.1)
    · exact le_antisymm (h'.2.2 b h.1 h.2.1) (h.2.2 b' h'.1 h'.2.1)

/-! ## C249 -/

section
variable (P : Measure Ω) [IsProbabilityMeasure P] (F : FinEst ℝ) (hF : Sound F) (bp : BasePeriod) (cg : ControlGroup) (a : ℤ) (ha : 0 ≤ a)
  (y y0 : Ω → β → ℝ) (w : β → ℝ) (df out : List (Obs ι β)) (hnd : NoDuplicates df) (hbal : Balanced df) (hcc : CohortConstant df)
  (hout : pipeline cg a df = some out) (hwpos : ∀ r ∈ out, 0 < w r.val.2) (hwc : ∀ r ∈ out, ∀ s ∈ out, r.id = s.id → w r.val.2 = w s.val.2)
  (trend : ℤ → ℝ) (hA : Assumptions P a y y0 w out trend) (gi ti : ℕ) (att : Ω → ℝ) (inf : Ω → List ℝ)
  (h : ∀ ω, runCell bp (onFin F) (dataOf cg a (y ω) w out) gi ti = .val (att ω) (inf ω))
include hF ha hnd hbal hcc hout hwpos hwc hA h

/-- **C249.**  The estimate for cohort `g` and period `t` has a mean, and it is the mean effect on cohort `g` in period `t` minus the mean effect on
the same cohort in the base period of the cell. -/
theorem C249_cell : ∃ g t b, (groupsOf out)[gi]? = some g ∧ (periodsOf out)[ti + timeFactor bp]? = some t ∧ IsBaseFor bp (periodsOf out) a g t b ∧
    Integrable att P ∧ ∫ ω, att ω ∂P = meanEffect P y y0 w out g t - meanEffect P y y0 w out g b := by
  obtain ⟨_, _, _, _, hb, hn, hc, _⟩ := pipeline_balanced cg a df out hnd hbal hcc hout
  have hs : out.Pairwise leTGI := by
    unfold pipeline at hout
    obtain ⟨o, _, rfl⟩ := Option.map_eq_some_iff.1 hout
    exact sortTGI_pairwise o
  have hcell := fun ω => C73_cell_is_did F hF bp cg a ha (y ω) w df out hnd hbal hcc hout hwpos hwc gi ti (att ω) (inf ω) (h ω)
  obtain ⟨ω₀⟩ : Nonempty Ω := P.nonempty_of_neZero
  obtain ⟨g, t, b, hg, ht, hbp, hbase, hT, hC, _⟩ := hcell ω₀
  have hatt : att = fun ω => meanChange (y ω) w out (isCohort g) t b - meanChange (y ω) w out (isControl cg a g t b) t b := by
    funext ω
    obtain ⟨g', t', b', hg', ht', _, hbase', _, _, he⟩ := hcell ω
    obtain rfl : g = g' := by rw [hg] at hg'; exact Option.some.inj hg'
    obtain rfl : t = t' := by rw [ht] at ht'; exact Option.some.inj ht'
    obtain rfl := base_unique hbase hbase'
    exact he
  have htper : IsPeriod out t := mem_periodsOf.1 (List.mem_of_getElem? ht)
  obtain ⟨i1, m1⟩ := meanChange_integral P y w out hA.int (isCohort g) t b
  obtain ⟨i2, m2⟩ := meanChange_integral P y w out hA.int (isControl cg a g t b) t b
  refine ⟨g, t, b, hg, ht, hbase, by rw [hatt]; exact i1.sub i2, ?_⟩
  rw [hatt, integral_sub i1 i2, m1, m2]
  -- controls have untreated means
  have hctl : meanChange (expected P y) w out (isControl cg a g t b) t b = meanChange (expected P y0) w out (isControl cg a g t b) t b := by
    have late : ∀ r ∈ out, isControl cg a g t b (cohort r) = true → ∀ s ∈ out, s.id = r.id → s.t = t ∨ s.t = b →
        expected P y s.val.2 = expected P y0 s.val.2 := by
      intro r hr hctl s hs' hid hst
      apply hA.noAnticipation s hs'
      rw [hc s hs' r hr hid]
      unfold isControl at hctl
      rw [Bool.and_eq_true] at hctl
      cases cg with
      | neverTreated =>
        have := hctl.2
        simp only [decide_eq_true_eq] at this
        rw [this]
        exact WithTop.coe_lt_top _
      | notYetTreated =>
        have := hctl.2
        simp only [decide_eq_true_eq] at this
        refine lt_of_le_of_lt (WithTop.coe_le_coe.2 ?_) this
        rcases hst with e | e
        · have := le_max_left t b; omega
        · have := le_max_right t b; omega
    unfold meanChange
    congr 2
    apply List.map_congr_left
    intro r hr
    have hr' := List.mem_filter.1 hr
    simp only [Bool.and_eq_true, decide_eq_true_eq] at hr'
    have e1 := late r hr'.1 hr'.2.2 r hr'.1 rfl (Or.inl hr'.2.1)
    have e2 : outcomeAt (expected P y) out r.id b = outcomeAt (expected P y0) out r.id b := by
      unfold outcomeAt
      congr 1
      apply List.map_congr_left
      intro s hs'
      have hs'' := List.mem_filter.1 hs'
      simp only [decide_eq_true_eq] at hs''
      exact late r hr'.1 hr'.2.2 s hs''.1 hs''.2.1 (Or.inr hs''.2.2)
    rw [e1, e2]
  have hpar := fun S hS => parallel_union (expected P y0) w out hwpos hb hc (trend t - trend b) t b htper
    (fun c hc' => hA.parallel c t b hc' htper hbp) S hS
  have hpt := hpar (isCohort g) hT
  rw [hctl, hpar _ hC, ← hpt, meanChange_levels _ w out hn hb hc hs hwc _ t b htper hbp, meanChange_levels _ w out hn hb hc hs hwc _ t b htper hbp]
  have heff : ∀ p, meanEffect P y y0 w out g p =
      ((out.filter fun r => decide (r.t = p) && isCohort g (cohort r)).map fun r => w r.val.2 * expected P y r.val.2).sum /
        ((out.filter fun r => decide (r.t = p) && isCohort g (cohort r)).map fun r => w r.val.2).sum -
      ((out.filter fun r => decide (r.t = p) && isCohort g (cohort r)).map fun r => w r.val.2 * expected P y0 r.val.2).sum /
        ((out.filter fun r => decide (r.t = p) && isCohort g (cohort r)).map fun r => w r.val.2).sum := by
    intro p
    unfold meanEffect
    have : ∀ r : Obs ι β, decide (r.t = p ∧ cohort r = (g : WithTop ℤ)) = (decide (r.t = p) && isCohort g (cohort r)) := by
      intro r; unfold isCohort; rw [Bool.decide_and]
    simp only [this]
    rw [← sub_div, ← sum_sub_list]
    simp only [mul_sub]
  rw [heff, heff]
  ring

/-- **C249.**  In a period in which cohort `g` is treated the estimate is unbiased for the mean effect of treatment on the cohort in that period. -/
theorem C249_treated : ∃ g t, (groupsOf out)[gi]? = some g ∧ (periodsOf out)[ti + timeFactor bp]? = some t ∧
    Integrable att P ∧ (g ≤ t → ∫ ω, att ω ∂P = meanEffect P y y0 w out g t) := by
  obtain ⟨g, t, b, hg, ht, hbase, hi, hm⟩ := C249_cell P F hF bp cg a ha y y0 w df out hnd hbal hcc hout hwpos hwc trend hA gi ti att inf h
  refine ⟨g, t, hg, ht, hi, fun hgt => ?_⟩
  have hlt : b + a < g := by
    unfold IsBaseFor at hbase
    cases bp with
    | universal => exact hbase.1.2.1
    | varying => simp only [if_pos hgt] at hbase; exact hbase.2.1
  have hz : meanEffect P y y0 w out g b = 0 := by
    unfold meanEffect
    have : ((out.filter fun r => decide (r.t = b ∧ cohort r = (g : WithTop ℤ))).map
        fun r => w r.val.2 * (expected P y r.val.2 - expected P y0 r.val.2)).sum = 0 := by
      apply List.sum_eq_zero
      intro z hz
      obtain ⟨r, hr, rfl⟩ := List.mem_map.1 hz
      have hr' := List.mem_filter.1 hr
      simp only [decide_eq_true_eq] at hr'
      rw [hA.noAnticipation r hr'.1 (by rw [hr'.2.2, hr'.2.1]; exact WithTop.coe_lt_coe.2 hlt)]
      ring
    rw [this, zero_div]
  rw [hm, hz, sub_zero]

/-- **C249.**  In a period before the anticipation window of cohort `g` opens the estimate has mean zero. -/
theorem C249_before : ∃ g t, (groupsOf out)[gi]? = some g ∧ (periodsOf out)[ti + timeFactor bp]? = some t ∧
    Integrable att P ∧ (t + a < g → ∫ ω, att ω ∂P = 0) := by
  obtain ⟨g, t, b, hg, ht, hbase, hi, hm⟩ := C249_cell P F hF bp cg a ha y y0 w df out hnd hbal hcc hout hwpos hwc trend hA gi ti att inf h
  refine ⟨g, t, hg, ht, hi, fun hgt => ?_⟩
  have hlt : b + a < g := by
    unfold IsBaseFor at hbase
    cases bp with
    | universal => exact hbase.1.2.1
    | varying =>
      have hng : ¬ g ≤ t := by omega
      simp only [if_neg hng] at hbase
      have := hbase.2.1
      omega
  have hz : ∀ p, p + a < g → meanEffect P y y0 w out g p = 0 := by
    intro p hp
    unfold meanEffect
    have : ((out.filter fun r => decide (r.t = p ∧ cohort r = (g : WithTop ℤ))).map
        fun r => w r.val.2 * (expected P y r.val.2 - expected P y0 r.val.2)).sum = 0 := by
      apply List.sum_eq_zero
      intro z hz
      obtain ⟨r, hr, rfl⟩ := List.mem_map.1 hz
      have hr' := List.mem_filter.1 hr
      simp only [decide_eq_true_eq] at hr'
      rw [hA.noAnticipation r hr'.1 (by rw [hr'.2.2, hr'.2.1]; exact WithTop.coe_lt_coe.2 hp)]
      ring
    rw [this, zero_div]
  rw [hm, hz t hgt, hz b hlt, sub_zero]

end

/-- The regression estimator returns a number whenever both arms have weight. -/
theorem regEst_total {ols : ∀ n, DR.OLS (Fin n) Unit ℝ} (hg : GoodOLS ols) (infl : ∀ n, (Fin n → ℝ) → List ℝ) (n : ℕ) (y1 y0 : Fin n → ℝ)
    (d : Fin n → Bool) (w : Fin n → ℝ) (hw : DR.BothArms w d) : regEst ols infl n y1 y0 d w = .val (DR.did2x2 w d y1 y0) (infl n w) := by
  unfold regEst
  rw [DR.C25_reg_no_covariates (ols n) y1 y0 d _ w (fun _ => rfl) hw (hg n _ _ _ ?_)]
  have := hw.norm.control
  have e : (Finset.univ.filter fun i => DR.notB d i = true) = Finset.univ.filter fun i => d i = false := by
    ext i; simp [DR.notB]
  rw [e]; exact this.ne'

/-- A cell with units in both arms gets an estimate, whatever the outcomes. -/
theorem cell_exists {ols : ∀ n, DR.OLS (Fin n) Unit ℝ} (hgood : GoodOLS ols) (infl : ∀ n, (Fin n → ℝ) → List ℝ) (bp : BasePeriod)
    (cg : ControlGroup) (a : ℤ) (ha : 0 ≤ a) (y : Ω → β → ℝ) (w : β → ℝ) (df out : List (Obs ι β)) (hnd : NoDuplicates df) (hbal : Balanced df)
    (hcc : CohortConstant df) (hout : pipeline cg a df = some out)
    (hwpos : ∀ r ∈ out, 0 < w r.val.2) (hwc : ∀ r ∈ out, ∀ s ∈ out, r.id = s.id → w r.val.2 = w s.val.2)
    (gi ti pre : ℕ) (g t rel : ℤ) (hg : (groupsOf out)[gi]? = some g) (hp : planCell bp (periodsOf out) a g ti = some (.run pre))
    (ht : (periodsOf out)[ti + timeFactor bp]? = some t) (hrel : relevantPeriod (periodsOf out) ti pre (timeFactor bp) a = some rel)
    (hboth : some true ∈ panelCohortIndex cg rel g (cohortCounts (timeInvariant out)) (idCount out) ∧
      some false ∈ panelCohortIndex cg rel g (cohortCounts (timeInvariant out)) (idCount out)) :
    ∃ (att : Ω → ℝ) (inf : Ω → List ℝ), ∀ ω, runCell bp (onFin (regEst ols infl)) (dataOf cg a (y ω) w out) gi ti = .val (att ω) (inf ω) := by
  have h : ∀ ω, ∃ x : ℝ × List ℝ, runCell bp (onFin (regEst ols infl)) (dataOf cg a (y ω) w out) gi ti = .val x.1 x.2 := by
    intro ω
    obtain ⟨b, n, y1, y0, d, wv, _, _, _, _, harms, _, hrun⟩ := cell_eval (regEst ols infl) bp cg a ha (y ω) w df out hnd hbal hcc hout
      hwpos hwc gi ti pre g t rel hg hp ht hrel hboth
    rw [regEst_total hgood infl n y1 y0 d wv harms] at hrun
    exact ⟨(_, _), hrun⟩
  choose x hx using h
  exact ⟨fun ω => (x ω).1, fun ω => (x ω).2, hx⟩

/-! ## Example -/

/-- Weighted means solve intercept-only least squares. -/
noncomputable def meanOLSR (n : ℕ) : DR.OLS (Fin n) Unit ℝ := fun w sel _ y _ =>
  (∑ i with sel i = true, w i * y i) / ∑ i with sel i = true, w i

theorem meanOLSR_good : GoodOLS meanOLSR := by
  intro n w sel y hw k
  simp only [meanOLSR, one_mul, mul_one, Finset.univ_unique, Finset.sum_singleton, mul_sub, Finset.sum_sub_distrib,
    ← Finset.sum_mul]
  rw [mul_div_cancel₀ _ hw, sub_self]

/-- Four units, three periods, cohorts 2, 3 and never treated; the payload is (unit, period, treated?). -/
def rowPanel : List (Obs ℕ (ℕ × ℕ × Bool)) :=
  [⟨1, 1, (2, (1, 1, false))⟩, ⟨1, 2, (2, (1, 2, true))⟩, ⟨1, 3, (2, (1, 3, true))⟩,
   ⟨2, 1, (3, (2, 1, false))⟩, ⟨2, 2, (3, (2, 2, false))⟩, ⟨2, 3, (3, (2, 3, true))⟩,
   ⟨3, 1, (0, (3, 1, false))⟩, ⟨3, 2, (0, (3, 2, false))⟩, ⟨3, 3, (0, (3, 3, false))⟩,
   ⟨4, 1, (0, (4, 1, false))⟩, ⟨4, 2, (0, (4, 2, false))⟩, ⟨4, 3, (0, (4, 3, false))⟩]

def rowOut : List (Obs ℕ (ℕ × ℕ × Bool)) :=
  [⟨1, 1, (some 2, (1, 1, false))⟩, ⟨2, 1, (some 3, (2, 1, false))⟩, ⟨3, 1, (none, (3, 1, false))⟩, ⟨4, 1, (none, (4, 1, false))⟩,
   ⟨1, 2, (some 2, (1, 2, true))⟩, ⟨2, 2, (some 3, (2, 2, false))⟩, ⟨3, 2, (none, (3, 2, false))⟩, ⟨4, 2, (none, (4, 2, false))⟩,
   ⟨1, 3, (some 2, (1, 3, true))⟩, ⟨2, 3, (some 3, (2, 3, true))⟩, ⟨3, 3, (none, (3, 3, false))⟩, ⟨4, 3, (none, (4, 3, false))⟩]

theorem rowOut_eq : pipeline .notYetTreated 0 rowPanel = some rowOut := by decide +kernel

/-- Untreated outcome: unit effect `10 u`, common trend `t²`, noise; the effect of treatment is `7`. -/
def rowY0 (e : ℝ) (v : ℕ × ℕ × Bool) : ℝ := 10 * v.1 + v.2.1 ^ 2 + v.1 * e
def rowY (e : ℝ) (v : ℕ × ℕ × Bool) : ℝ := rowY0 e v + if v.2.2 then 7 else 0

/-- Noise with mean zero: a fair coin. -/
noncomputable def coin : Measure ℝ := (2⁻¹ : ENNReal) • Measure.dirac 1 + (2⁻¹ : ENNReal) • Measure.dirac (-1)

instance : IsProbabilityMeasure coin := ⟨by simp [coin, ENNReal.inv_two_add_inv_two]⟩

theorem coin_int (f : ℝ → ℝ) : Integrable f coin ∧ ∫ e, f e ∂coin = (f 1 + f (-1)) / 2 := by
  have h1 : Integrable f ((2⁻¹ : ENNReal) • Measure.dirac (1 : ℝ)) := (integrable_dirac (by simp)).smul_measure (by simp)
  have h2 : Integrable f ((2⁻¹ : ENNReal) • Measure.dirac (-1 : ℝ)) := (integrable_dirac (by simp)).smul_measure (by simp)
  refine ⟨h1.add_measure h2, ?_⟩
  rw [coin, integral_add_measure h1 h2, integral_smul_measure, integral_smul_measure, integral_dirac, integral_dirac]
  simp
  ring

theorem row_expected (v : ℕ × ℕ × Bool) : expected coin rowY0 v = 10 * v.1 + v.2.1 ^ 2 ∧
    expected coin rowY v = 10 * v.1 + v.2.1 ^ 2 + if v.2.2 then 7 else 0 := by
  constructor
  · rw [expected, (coin_int _).2]; simp [rowY0]; ring
  · rw [expected, (coin_int _).2]; simp [rowY, rowY0]; ring

theorem row_assumptions : Assumptions coin 0 rowY rowY0 (fun _ => 1) rowOut (fun t => (t : ℝ) ^ 2) where
  int := fun r _ => (coin_int _).1
  noAnticipation := by
    have : ∀ r ∈ rowOut, ((r.t + 0 : ℤ) : WithTop ℤ) < cohort r → r.val.2.2.2 = false := by decide +kernel
    intro r hr hlt
    rw [(row_expected _).1, (row_expected _).2, this r hr hlt]
    simp
  parallel := by
    intro c t b ⟨r, hr, hc⟩ ht hb
    have hk : ∀ r ∈ rowOut, r.val.2.1 = r.id ∧ (r.val.2.2.1 : ℤ) = r.t := by decide +kernel
    refine additive_trend _ (fun u : ℕ => 10 * (u : ℝ)) (fun t : ℤ => (t : ℝ) ^ 2) (fun _ => 1) rowOut (fun _ _ => one_pos)
      (by unfold NoDuplicates; decide +kernel) ?_ (fun r hr => ?_) _ t b ht hb ?_
    · rintro u ⟨s, hs, rfl⟩ t ⟨s', hs', rfl⟩
      revert s s'
      unfold Observed
      decide +kernel
    · obtain ⟨h1, h2⟩ := hk r hr
      rw [(row_expected _).1, ← h1, ← h2]
      push_cast
      ring
    · obtain ⟨s, hs, h1, h2⟩ : ∃ s ∈ rowOut, cohort s = c ∧ s.t = t := by
        obtain ⟨r', hr', ht'⟩ := ht
        have : ∀ r ∈ rowOut, ∀ r' ∈ rowOut, ∃ s ∈ rowOut, cohort s = cohort r ∧ s.t = r'.t := by decide +kernel
        obtain ⟨s, hs, h1, h2⟩ := this r hr r' hr'
        exact ⟨s, hs, h1.trans hc, h2.trans ht'⟩
      exact ⟨s, hs, by simp [h1, h2]⟩

example : ∃ (att : ℝ → ℝ) (inf : ℝ → List ℝ), (∀ ω, runCell .varying (onFin (regEst meanOLSR fun _ _ => [])) (dataOf .notYetTreated 0 (rowY ω) (fun _ => 1) rowOut) 0 1 =
    .val (att ω) (inf ω)) ∧ ∫ ω, att ω ∂coin = 7 := by
  have hnd : NoDuplicates rowPanel := by unfold NoDuplicates; decide +kernel
  have hbal : Balanced rowPanel := by
    rintro u ⟨s, hs, rfl⟩ t ⟨s', hs', rfl⟩
    revert s s'
    unfold Observed
    decide +kernel
  have hcc : CohortConstant rowPanel := by unfold CohortConstant; decide +kernel
  obtain ⟨att, inf, h⟩ := cell_exists meanOLSR_good (fun _ _ => []) .varying .notYetTreated 0 le_rfl rowY (fun _ => 1) rowPanel rowOut hnd hbal hcc
    rowOut_eq (fun _ _ => one_pos) (fun _ _ _ _ _ => rfl) 0 1 0 2 3 3 (by decide +kernel) (by decide +kernel) (by decide +kernel)
    (by decide +kernel) (by decide +kernel)
  refine ⟨att, inf, h, ?_⟩
  obtain ⟨g, t, hg, ht, _, hm⟩ := C249_treated coin _ (regEst_sound meanOLSR_good _) .varying .notYetTreated 0 le_rfl rowY rowY0 (fun _ => 1)
    rowPanel rowOut hnd hbal hcc rowOut_eq (fun _ _ => one_pos) (fun _ _ _ _ _ => rfl) _ row_assumptions 0 1 att inf h
  have h1 : (groupsOf rowOut)[0]? = some 2 := by decide +kernel
  have h2 : (periodsOf rowOut)[1 + timeFactor .varying]? = some 3 := by decide +kernel
  obtain rfl : g = 2 := by rw [h1] at hg; exact (Option.some.inj hg).symm
  obtain rfl : t = 3 := by rw [h2] at ht; exact (Option.some.inj ht).symm
  rw [hm (by norm_num)]
  unfold meanEffect
  have hf : (rowOut.filter fun r => decide (r.t = 3 ∧ cohort r = ((2 : ℤ) : WithTop ℤ))) = [⟨1, 3, (some 2, (1, 3, true))⟩] := by decide +kernel
  rw [hf]
  simp only [(row_expected _).1, (row_expected _).2]
  simp

end Verif.Ident
