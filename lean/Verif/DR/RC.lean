import Verif.DR.Props

set_option linter.unusedSectionVars false

/-!
# Repeated cross-sections without covariates: C29
-/

namespace Verif.DR

variable {ι κ K : Type*} [Fintype ι] [Fintype κ] [Field K] [LinearOrder K] [IsStrictOrderedRing K]

/-- Non-negative weights, positive weight in each of the four arm-by-period cells. -/
structure FourCells (w : ι → K) (d post : ι → Bool) : Prop where
  nonneg : ∀ i, 0 ≤ w i
  pos : ∀ a b : Bool, 0 < ∑ i with d i = a ∧ post i = b, w i

lemma FourCells.ex {w : ι → K} {d post : ι → Bool} (h : FourCells w d post) (a b : Bool) :
    ∃ i, d i = a ∧ post i = b := by
  by_contra hn
  have := h.pos a b
  rw [Finset.filter_false_of_mem (by intro i _ hi; exact hn ⟨i, hi⟩)] at this
  simp at this

lemma FourCells.nonempty {w : ι → K} {d post : ι → Bool} (h : FourCells w d post) : Nonempty ι :=
  ⟨(h.ex true true).choose⟩

lemma FourCells.arm {w : ι → K} {d post : ι → Bool} (h : FourCells w d post) (a : Bool) :
    0 < ∑ i with d i = a, w i := by
  refine lt_of_lt_of_le (h.pos a true) (Finset.sum_le_sum_of_subset_of_nonneg ?_ ?_)
  · intro i; simp; tauto
  · intro i _ _; exact h.nonneg i

lemma FourCells.arms {w : ι → K} {d post : ι → Bool} (h : FourCells w d post) : BothArms w d :=
  ⟨h.nonneg, h.arm true, h.arm false⟩

lemma FourCells.norm {w : ι → K} {d post : ι → Bool} (h : FourCells w d post) : FourCells (normalize w) d post := by
  have hm := h.arms.mean_pos
  constructor
  · intro i; exact div_nonneg (h.nonneg i) hm.le
  · intro a b
    unfold normalize; rw [← Finset.sum_div]; exact div_pos (h.pos a b) hm

lemma FourCells.checks {w : ι → K} {d post : ι → Bool} (h : FourCells w d post) : rcChecks d post w = true := by
  unfold rcChecks
  obtain ⟨i, hi⟩ := h.ex true true
  obtain ⟨j, hj⟩ := h.ex false false
  simp only [decide_eq_true_eq]
  exact ⟨by push Not; exact h.nonneg, ⟨i, hi.1⟩, ⟨j, hj.1⟩, ⟨i, hi.2⟩, ⟨j, hj.2⟩⟩

/-- Period indicator: `post` for `b = true`, `1 - post` for `b = false`. -/
def perK (post : ι → Bool) (b : Bool) : ι → K := if b then postK post else preK post

lemma perK_eq (post : ι → Bool) (b : Bool) (i : ι) : (perK post b i : K) = if post i = b then 1 else 0 := by
  cases b <;> cases h : post i <;> simp [perK, postK, preK, ind, h]

lemma wTreatRC_trim (level : K) (d post : ι → Bool) (ps w : ι → K) (b : Bool) :
    wTreatRC d (trim level d ps) w (perK post b) = fun i => if d i = true ∧ post i = b then w i else 0 := by
  funext i
  unfold wTreatRC
  rw [perK_eq]
  cases h : d i
  · rw [ind_false (b := d) h]; simp
  · rw [ind_true (b := d) h, ind_true (trim_treated h)]
    by_cases hb : post i = b <;> simp [hb]

lemma wContRC_const {level p : K} (hp : p < level) (d post : ι → Bool) (w : ι → K) (b : Bool) :
    wContRC d (trim level d (fun _ => p)) (fun _ => p) w (perK post b) =
      fun i => (p / (1 - p)) * (if d i = false ∧ post i = b then w i else 0) := by
  funext i
  unfold wContRC
  rw [perK_eq]
  cases h : d i
  · have h1 : trim level d (fun _ => p) i = true := by simp [trim, h, hp]
    rw [ind_true h1, ind_false h]
    by_cases hb : post i = b <;> simp [hb]
    ring
  · rw [ind_true (b := d) h]; simp

lemma wmean_ite [Nonempty ι] (S : ι → Prop) [DecidablePred S] (w v : ι → K) :
    wmean (fun i => if S i then w i else 0) v = wavg w S v := by
  rw [wmean_eq]
  unfold wavg
  simp only [ite_mul, zero_mul, Finset.sum_filter]

lemma mean_ite_ne [Nonempty ι] {w : ι → K} {d post : ι → Bool} (h : FourCells w d post) (a b : Bool) :
    mean (fun i => if d i = a ∧ post i = b then w i else 0) ≠ 0 := by
  rw [Ne, mean_eq_zero, ← Finset.sum_filter]
  exact (h.pos a b).ne'

section
variable {w : ι → K} {d post : ι → Bool} {lo hi level p : K}

/-- Everything the intercept-only logit contributes. -/
lemma rc_scores (hlo : 0 < lo) (hhi : hi < 1) (hlh : lo ≤ hi) (hw : FourCells w d post)
    (logit : Logit ι Unit K) (x : ι → Unit → K) (hx : ∀ i, x i () = 1)
    (hlog : ∃ p, logit (normalize w) d x = fun _ => p)
    (hscore : ScoreEq (normalize w) d x (logit (normalize w) d x))
    (hlevel : min hi (max lo (treatedShare w d)) < level) :
    ∃ q, clip lo hi (logit (normalize w) d x) = (fun _ => q) ∧ q < level ∧ q / (1 - q) ≠ 0 := by
  obtain ⟨p, hp⟩ := hlog
  rw [hp] at hscore
  have hps := intercept_logit _ _ _ hx _ hscore hw.norm.arms.total.ne'
  rw [share_normalize hw.arms] at hps
  refine ⟨min hi (max lo p), by funext i; unfold clip; rw [hp], by rw [hps]; exact hlevel, ?_⟩
  have hq1 : min hi (max lo p) < 1 := lt_of_le_of_lt (min_le_left _ _) hhi
  have hq0 : 0 < min hi (max lo p) := lt_min (lt_of_lt_of_le hlo hlh) (lt_of_lt_of_le hlo (le_max_left _ _))
  exact (div_pos hq0 (sub_pos.2 hq1)).ne'

end

lemma postK_perK (post : ι → Bool) : (postK post : ι → K) = perK post true := rfl
lemma preK_perK (post : ι → Bool) : (preK post : ι → K) = perK post false := rfl

lemma ipwRC_const {w : ι → K} {d post : ι → Bool} (hw : FourCells w d post) {level p : K} (hp : p < level)
    (hodds : p / (1 - p) ≠ 0) (y : ι → K) :
    ipwRC d (trim level d (fun _ => p)) post (fun _ => p) y w = did4 w d post y := by
  have := hw.nonempty
  unfold ipwRC did4
  simp only [hmean_eq_wmean, postK_perK, preK_perK, wTreatRC_trim, wContRC_const hp, wmean_scale hodds, wmean_ite]

lemma did4_normalize {w : ι → K} {d post : ι → Bool} (hw : FourCells w d post) (y : ι → K) :
    did4 (normalize w) d post y = did4 w d post y := by
  unfold did4
  simp only [wavg_normalize _ _ hw.arms.mean_pos.ne']

/-- **C29 (IPW).** Without covariates `std_ipw_did_rc` is the four-mean DiD. -/
theorem C29_ipw_no_covariates (logit : Logit ι Unit K) (lo hi level : K)
    (y : ι → K) (post d : ι → Bool) (x : ι → Unit → K) (w : ι → K)
    (hlo : 0 < lo) (hhi : hi < 1) (hlh : lo ≤ hi) (hx : ∀ i, x i () = 1) (hw : FourCells w d post)
    (hlog : ∃ p, logit (normalize w) d x = fun _ => p)
    (hscore : ScoreEq (normalize w) d x (logit (normalize w) d x))
    (hlevel : min hi (max lo (treatedShare w d)) < level) :
    stdIpwDidRC logit lo hi level y post d x w = some (did4 w d post y) := by
  obtain ⟨q, hq, hql, hodds⟩ := rc_scores hlo hhi hlh hw logit x hx hlog hscore hlevel
  unfold stdIpwDidRC
  rw [hw.checks]
  simp only [if_true, hq]
  rw [ipwRC_const hw.norm hql hodds, did4_normalize hw]

/-- Residualising on constants per period does not change the four-mean contrast. -/
lemma tradRC_const {w : ι → K} {d post : ι → Bool} (hw : FourCells w d post) {level p : K} (hp : p < level)
    (hodds : p / (1 - p) ≠ 0) (y : ι → K) (c0 c1 : K) :
    tradRC d (trim level d (fun _ => p)) post (fun _ => p) (fun _ => c0) (fun _ => c1) y w = did4 w d post y := by
  have := hw.nonempty
  unfold tradRC did4
  simp only [hmean_eq_wmean, postK_perK, preK_perK, wTreatRC_trim, wContRC_const hp, wmean_scale hodds]
  have key : ∀ a b : Bool, wmean (fun i => if d i = a ∧ post i = b then w i else 0)
      (fun i => y i - (perK post true i * c1 + (1 - perK post true i) * c0)) =
      wavg w (fun i => d i = a ∧ post i = b) y - (if b then c1 else c0) := by
    intro a b
    rw [← wmean_ite, ← wmean_const _ (if b then c1 else c0) (mean_ite_ne hw a b), ← wmean_sub]
    apply wmean_congr
    intro i hi
    have hi' : d i = a ∧ post i = b := by
      by_contra hn; exact hi (if_neg hn)
    simp only [perK_eq, hi'.2]
    cases b <;> simp
  simp only [key]
  simp only [if_true, Bool.false_eq_true, if_false]
  ring

/-- **C29 (traditional DR).** -/
theorem C29_trad_no_covariates (ols : OLS ι Unit K) (logit : Logit ι Unit K) (lo hi level : K)
    (y : ι → K) (post d : ι → Bool) (x : ι → Unit → K) (w : ι → K)
    (hlo : 0 < lo) (hhi : hi < 1) (hlh : lo ≤ hi) (hx : ∀ i, x i () = 1) (hw : FourCells w d post)
    (hlog : ∃ p, logit (normalize w) d x = fun _ => p)
    (hscore : ScoreEq (normalize w) d x (logit (normalize w) d x))
    (hlevel : min hi (max lo (treatedShare w d)) < level) :
    drdidTradRC ols logit lo hi level y post d x w = some (did4 w d post y) := by
  obtain ⟨q, hq, hql, hodds⟩ := rc_scores hlo hhi hlh hw logit x hx hlog hscore hlevel
  have hfit : ∀ β : Unit → K, fitted x β = fun _ => β () := by
    intro β; funext i; unfold fitted; simp [hx]
  unfold drdidTradRC
  rw [hw.checks]
  simp only [if_true, hq, hfit]
  rw [tradRC_const hw.norm hql hodds, did4_normalize hw]

/-- **C29 (locally efficient DR).** -/
theorem C29_dr_no_covariates (ols : OLS ι Unit K) (logit : Logit ι Unit K) (lo hi level : K)
    (y : ι → K) (post d : ι → Bool) (x : ι → Unit → K) (w : ι → K)
    (hlo : 0 < lo) (hhi : hi < 1) (hlh : lo ≤ hi) (hx : ∀ i, x i () = 1) (hw : FourCells w d post)
    (hlog : ∃ p, logit (normalize w) d x = fun _ => p)
    (hscore : ScoreEq (normalize w) d x (logit (normalize w) d x))
    (hlevel : min hi (max lo (treatedShare w d)) < level) :
    drdidRC ols logit lo hi level y post d x w = some (did4 w d post y) := by
  obtain ⟨q, hq, hql, hodds⟩ := rc_scores hlo hhi hlh hw logit x hx hlog hscore hlevel
  have := hw.nonempty
  have hfit : ∀ β : Unit → K, fitted x β = fun _ => β () := by
    intro β; funext i; unfold fitted; simp [hx]
  unfold drdidRC
  rw [hw.checks]
  simp only [if_true, hq, hfit]
  unfold drRC
  rw [tradRC_const hw.norm hql hodds, did4_normalize hw]
  have e0 : (fun i => ind (trim level d (fun _ => q)) i * normalize w i * ind d i) =
      wTreat d (trim level d (fun _ => q)) (normalize w) := rfl
  have e1 : (fun i => ind (trim level d (fun _ => q)) i * normalize w i * ind d i * postK post i) =
      wTreatRC d (trim level d (fun _ => q)) (normalize w) (perK post true) := rfl
  have e2 : (fun i => ind (trim level d (fun _ => q)) i * normalize w i * ind d i * (1 - postK post i)) =
      wTreatRC d (trim level d (fun _ => q)) (normalize w) (perK post false) := rfl
  have hT : mean (fun i => ind d i * normalize w i) ≠ 0 := by
    rw [Ne, mean_eq_zero, sum_ind]; exact hw.norm.arms.treated.ne'
  simp only [hmean_eq_wmean, e0, e1, e2, wTreat_trim, wTreatRC_trim]
  rw [wmean_const _ _ hT, wmean_const _ _ (mean_ite_ne hw.norm true true), wmean_const _ _ hT,
    wmean_const _ _ (mean_ite_ne hw.norm true false)]
  simp

/-- **C29 (REG).** -/
theorem C29_reg_no_covariates (ols : OLS ι Unit K)
    (y : ι → K) (post d : ι → Bool) (x : ι → Unit → K) (w : ι → K)
    (hx : ∀ i, x i () = 1) (hw : FourCells w d post)
    (hols : ∀ pre, NormalEq (normalize w) (cellSel d post pre false) x y
      (ols (normalize w) (cellSel d post pre false) x y)) :
    regDidRC ols y post d x w = some (did4 w d post y) := by
  have := hw.nonempty
  unfold regDidRC
  rw [hw.checks]
  simp only [if_true]
  have hsel : ∀ pre i, cellSel d post pre false i = true ↔ (d i = false ∧ post i = !pre) := by
    intro pre i; unfold cellSel; cases d i <;> cases post i <;> cases pre <;> simp
  have hfit : ∀ pre, fitted x (ols (normalize w) (cellSel d post pre false) x y) =
      fun _ => wavg w (fun i => d i = false ∧ post i = !pre) y := by
    intro pre
    funext i
    have hs : ∑ i with cellSel d post pre false i = true, normalize w i ≠ 0 := by
      rw [Finset.sum_congr (s₂ := Finset.univ.filter (fun i => d i = false ∧ post i = !pre)) (by ext i; simp [hsel])
        (fun _ _ => rfl)]
      exact (hw.norm.pos false (!pre)).ne'
    rw [intercept_fit _ _ _ hx _ _ (hols pre) hs, wavg_congr _ _ (hsel pre), wavg_normalize _ _ hw.arms.mean_pos.ne']
  rw [hfit, hfit]
  unfold regRC did4
  have e1 : ∀ b, (fun i => normalize w i * ind d i * perK post b i) =
      fun i => if d i = true ∧ post i = b then normalize w i else 0 := by
    intro b; funext i
    rw [perK_eq]
    cases h : d i
    · rw [ind_false (b := d) h]; simp
    · rw [ind_true (b := d) h]; by_cases hb : post i = b <;> simp [hb]
  have e2 : (fun i => normalize w i * ind d i) = fun i => ind d i * normalize w i := by funext i; ring
  have hT : mean (fun i => ind d i * normalize w i) ≠ 0 := by
    rw [Ne, mean_eq_zero, sum_ind]; exact hw.norm.arms.treated.ne'
  rw [postK_perK, preK_perK, e1, e1, wmean_ite, wmean_ite, e2, wmean_const _ _ hT,
    wavg_normalize _ _ hw.arms.mean_pos.ne', wavg_normalize _ _ hw.arms.mean_pos.ne']
  rfl

/-! Non-vacuity: six observations, all four cells non-empty. -/

def exRD : Fin 6 → Bool := ![true, true, true, false, false, false]
def exRP : Fin 6 → Bool := ![true, false, true, true, false, false]
def exRW : Fin 6 → ℚ := ![1, 2, 3, 1, 1, 2]
def exRY : Fin 6 → ℚ := ![10, 3, 6, 4, 1, 7]
def exROls : OLS (Fin 6) Unit ℚ := fun w sel _ y _ => (∑ i with sel i = true, w i * y i) / ∑ i with sel i = true, w i
def exRLogit : Logit (Fin 6) Unit ℚ := fun w d _ _ => treatedShare w d

lemma exFour : FourCells exRW exRD exRP := by
  constructor <;> decide +kernel

example : drdidRC exROls exRLogit (1/1000000) (999999/1000000) (995/1000) exRY exRP exRD (fun _ _ => 1) exRW
    = some (did4 exRW exRD exRP exRY) ∧ did4 exRW exRD exRP exRY = 5 := by
  refine ⟨C29_dr_no_covariates _ _ _ _ _ _ _ _ _ _ (by decide +kernel) (by decide +kernel) (by decide +kernel)
    (fun _ => rfl) exFour ⟨_, rfl⟩ ?_ (by decide +kernel), by decide +kernel⟩
  intro k; revert k; decide +kernel

example : ∀ pre, NormalEq (normalize exRW) (cellSel exRD exRP pre false) (fun _ _ => 1) exRY
    (exROls (normalize exRW) (cellSel exRD exRP pre false) (fun _ _ => 1) exRY) := by
  intro pre k; revert pre k; decide +kernel

end Verif.DR
