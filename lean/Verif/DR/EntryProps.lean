import Verif.DR.Entry

set_option linter.unusedSectionVars false
set_option linter.unusedSimpArgs false
set_option linter.unusedVariables false

/-!
# `drdid`, `ipwdid`, `ordid` on panel data frames: C217, C218, C219
-/

namespace Verif.DR.Entry

open Verif.Panel Verif.Valid Verif.DR

/-! ## Estimators without covariates that C25 does not cover -/

section Arrays
variable {α K : Type*} [Fintype α] [Field K] [LinearOrder K] [IsStrictOrderedRing K]

lemma wavg_resid (w y : α → K) (S : α → Prop) [DecidablePred S] (h : ∑ i with S i, w i ≠ 0) :
    ∑ i with S i, w i * (y i - wavg w S y) = 0 := by
  simp only [mul_sub, Finset.sum_sub_distrib, ← Finset.sum_mul]
  unfold wavg
  field_simp
  ring

/-- The improved panel estimator with a constant only. -/
theorem imp_no_covariates (ols : OLS α Unit K) (ipt : Logit α Unit K) (lo hi level : K)
    (y1 y0 : α → K) (d : α → Bool) (x : α → Unit → K) (w : α → K)
    (hlo : 0 < lo) (hhi : hi < 1) (hlh : lo ≤ hi) (hx : ∀ i, x i () = 1) (hw : BothArms w d)
    (hipt : ∃ p, ipt (normalize w) d x = fun _ => p)
    (hols : ∀ v : α → K, ∑ i with notB d i = true, v i ≠ 0 → NormalEq v (notB d) x (fun i => y1 i - y0 i)
      (ols v (notB d) x (fun i => y1 i - y0 i))) :
    drdidImpPanel ols ipt lo hi level y1 y0 d x w = .ok (did2x2 w d y1 y0) := by
  obtain ⟨p, hp⟩ := hipt
  have hne := hw.nonempty
  have hwn := hw.norm
  obtain ⟨q, hq⟩ : ∃ q, q = min hi (max lo p) := ⟨_, rfl⟩
  have hclip : clip lo hi (ipt (normalize w) d x) = fun _ => q := by
    funext i; unfold clip; rw [hp, hq]
  have hq1 : q < 1 := by rw [hq]; exact lt_of_le_of_lt (min_le_left _ _) hhi
  have hq0 : 0 < q := by rw [hq]; exact lt_min (lt_of_lt_of_le hlo hlh) (lt_of_lt_of_le hlo (le_max_left _ _))
  have hodds : q / (1 - q) ≠ 0 := (div_pos hq0 (sub_pos.2 hq1)).ne'
  unfold drdidImpPanel
  have hneg : ¬ ∃ i, w i < 0 := by push Not; exact hw.nonneg
  rw [if_neg hneg]
  simp only [not_not.2 hw.exC, if_false]
  rw [hclip]
  have hselC : ∑ i with notB d i = true, normalize w i = ∑ i with d i = false, normalize w i := by
    apply Finset.sum_congr _ fun _ _ => rfl
    ext i; simp [notB]
  have hsel : ∑ i with notB d i = true, normalize w i * (q / (1 - q)) ≠ 0 := by
    rw [← Finset.sum_mul, hselC]
    exact mul_ne_zero hwn.control.ne' hodds
  have hfit := intercept_fit _ (notB d) x hx (fun i => y1 i - y0 i) _ (hols _ hsel) hsel
  obtain ⟨c, hc⟩ : ∃ c, c = wavg w (fun i => d i = false) (fun i => y1 i - y0 i) := ⟨_, rfl⟩
  have hcc : wavg (fun i => normalize w i * (q / (1 - q))) (fun i => notB d i = true) (fun i => y1 i - y0 i) = c := by
    rw [hc, ← wavg_normalize w _ hw.mean_pos.ne', wavg_congr (T := fun i => d i = false) _ _ (by intro i; simp [notB])]
    have : (fun i => normalize w i * (q / (1 - q))) = fun i => (q / (1 - q)) * normalize w i := by funext i; ring
    rw [this, wavg_scale hodds]
  have hf : fitted x (ols (fun i => normalize w i * (q / (1 - q))) (notB d) x fun i => y1 i - y0 i) = fun _ => c := by
    funext i; rw [hfit, hcc]
  rw [hf]
  congr 1
  obtain ⟨t, ht⟩ : ∃ t : K, ∀ i, d i = false → (ind (trim level d fun _ => q) i : K) = t := by
    refine ⟨if q < level then 1 else 0, ?_⟩
    intro i hi
    simp [ind, trim, hi]
  have h1 : ∑ i, normalize w i * (ind (trim level d fun _ => q) i * (1 - (1 - ind d i) / (1 - q)) * ((y1 i - y0 i) - c)) =
      ∑ i with d i = true, normalize w i * ((y1 i - y0 i) - c) := by
    rw [sum_split d]
    have hT : ∑ i with d i = true, normalize w i *
        (ind (trim level d fun _ => q) i * (1 - (1 - ind d i) / (1 - q)) * ((y1 i - y0 i) - c)) =
        ∑ i with d i = true, normalize w i * ((y1 i - y0 i) - c) := by
      apply Finset.sum_congr rfl
      intro i hi
      rw [Finset.mem_filter] at hi
      rw [ind_true (b := d) hi.2, ind_true (b := trim level d fun _ => q) (trim_treated hi.2)]
      ring
    have hC : ∑ i with d i = false, normalize w i *
        (ind (trim level d fun _ => q) i * (1 - (1 - ind d i) / (1 - q)) * ((y1 i - y0 i) - c)) = 0 := by
      have : ∀ i ∈ Finset.univ.filter (fun i => d i = false), normalize w i *
          (ind (trim level d fun _ => q) i * (1 - (1 - ind d i) / (1 - q)) * ((y1 i - y0 i) - c)) =
          (t * (1 - 1 / (1 - q))) * (normalize w i * ((y1 i - y0 i) - c)) := by
        intro i hi
        rw [Finset.mem_filter] at hi
        rw [ind_false (b := d) hi.2, ht i hi.2]
        ring
      rw [Finset.sum_congr rfl this, ← Finset.mul_sum, hc, ← wavg_normalize w _ hw.mean_pos.ne',
        wavg_resid _ _ _ hwn.control.ne', mul_zero]
    rw [hT, hC, add_zero]
  unfold impPanel
  unfold mean
  rw [h1, sum_ind, div_div_div_cancel_right₀ (card_ne (ι := α))]
  unfold did2x2
  rw [← hc, ← wavg_normalize w _ hw.mean_pos.ne' (fun i => d i = true)]
  simp only [mul_sub, Finset.sum_sub_distrib, ← Finset.sum_mul]
  have := hwn.treated.ne'
  unfold wavg
  simp only [mul_sub, Finset.sum_sub_distrib]
  field_simp

lemma odds_of_share {a b : K} (ha : 0 < a) (hb : 0 < b) : a / (a + b) / (1 - a / (a + b)) = a / b := by
  have h0 : a + b ≠ 0 := (add_pos ha hb).ne'
  have hb' := hb.ne'
  have : 1 - a / (a + b) = b / (a + b) := by field_simp; ring
  rw [this, div_div_div_cancel_right₀ h0]

/-- The Horvitz–Thompson panel estimator with a constant only, when the treated share is not clipped. -/
theorem ht_no_covariates (logit : Logit α Unit K) (lo hi level : K)
    (y1 y0 : α → K) (d : α → Bool) (x : α → Unit → K) (w : α → K)
    (hhi : hi < 1) (hx : ∀ i, x i () = 1) (hw : BothArms w d)
    (hlog : ∃ p, logit (normalize w) d x = fun _ => p)
    (hscore : ScoreEq (normalize w) d x (logit (normalize w) d x))
    (hshare : lo ≤ treatedShare w d ∧ treatedShare w d ≤ hi) (hlevel : treatedShare w d < level) :
    ipwDidPanel logit lo hi level y1 y0 d x w = .ok (some (did2x2 w d y1 y0)) := by
  obtain ⟨p, hp⟩ := hlog
  have hne := hw.nonempty
  have hwn := hw.norm
  rw [hp] at hscore
  have hps := intercept_logit _ _ _ hx _ hscore hwn.total.ne'
  have hps' := hps
  rw [share_normalize hw] at hps
  have hclip : clip lo hi (logit (normalize w) d x) = fun _ => p := by
    funext i; unfold clip; rw [hp]
    simp only
    rw [hps, max_eq_right hshare.1, min_eq_right hshare.2]
  have hT := hwn.treated.ne'
  have hC := hwn.control.ne'
  have hodds : p / (1 - p) = (∑ i with d i = true, normalize w i) / ∑ i with d i = false, normalize w i := by
    rw [hps']
    unfold treatedShare
    rw [sum_split d]
    exact odds_of_share hwn.treated hwn.control
  have hm : mean (fun i => normalize w i * ind d i) ≠ 0 := by
    rw [Ne, mean_eq_zero]
    have : ∑ i, normalize w i * ind d i = ∑ i, ind d i * normalize w i := Finset.sum_congr rfl fun i _ => by ring
    rw [this, sum_ind]; exact hT
  unfold ipwDidPanel
  have hneg : ¬ ∃ i, w i < 0 := by push Not; exact hw.nonneg
  rw [if_neg hneg]
  simp only [not_not.2 hw.exT, not_not.2 hw.exC, if_false]
  rw [if_neg hm, hclip, wTreat_trim, wCont_const (by rw [hps]; exact hlevel)]
  congr 2
  unfold did2x2
  rw [← wavg_normalize w _ hw.mean_pos.ne' (fun i => d i = true), ← wavg_normalize w _ hw.mean_pos.ne' (fun i => d i = false)]
  unfold mean wavg
  have e0 : ∑ i, normalize w i * ind d i = ∑ i with d i = true, normalize w i := by
    rw [← sum_ind]; exact Finset.sum_congr rfl fun i _ => by ring
  have e1 : ∑ i, ind d i * normalize w i * (y1 i - y0 i) = ∑ i with d i = true, normalize w i * (y1 i - y0 i) := by
    rw [← sum_ind]; exact Finset.sum_congr rfl fun i _ => by ring
  have e2 : ∑ i, p / (1 - p) * (ind (notB d) i * normalize w i) * (y1 i - y0 i) =
      p / (1 - p) * ∑ i with d i = false, normalize w i * (y1 i - y0 i) := by
    rw [← sum_notB, Finset.mul_sum]; exact Finset.sum_congr rfl fun i _ => by ring
  rw [e0, e1, e2, hodds, div_div_div_cancel_right₀ (card_ne (ι := α)), div_div_div_cancel_right₀ (card_ne (ι := α))]
  congr 1
  field_simp

end Arrays

variable {ι κ K : Type*} [LinearOrder ι] [Fintype κ] [Field K] [LinearOrder K] [IsStrictOrderedRing K]

/-! ## C217: no covariates, from the frame to the estimate -/

/-- Weighted mean change of the treated units minus that of the comparison units. -/
def unitDid (U : Finset ι) (D : ι → Bool) (W Y0 Y1 : ι → K) : K :=
  (∑ u ∈ U with D u = true, W u * (Y1 u - Y0 u)) / (∑ u ∈ U with D u = true, W u) -
    (∑ u ∈ U with D u = false, W u * (Y1 u - Y0 u)) / (∑ u ∈ U with D u = false, W u)

/-- Treated share of the weight of the usable units. -/
def unitShare (U : Finset ι) (D : ι → Bool) (W : ι → K) : K := (∑ u ∈ U with D u = true, W u) / ∑ u ∈ U, W u

/-- What is assumed of the fitting routines on a column of ones: least squares solves its normal equations whenever the
weights of the sample do not sum to zero, the logit fit is constant and solves the likelihood equations, the tilted
scores are constant. -/
structure InterceptFits (f : Fits Unit K) : Prop where
  ols : ∀ n w sel x y, (∀ i, x i () = 1) → ∑ i with sel i = true, w i ≠ 0 → NormalEq w sel x y (f.ols n w sel x y)
  logit : ∀ n w d x, (∀ i, x i () = 1) → ∑ i, w i ≠ 0 → ∃ p, f.logit n w d x = (fun _ => p) ∧ ScoreEq w d x fun _ => p
  ipt : ∀ n w d x, (∀ i, x i () = 1) → ∃ p, f.ipt n w d x = fun _ => p

lemma sum_enum {n : ℕ} {u : Fin n → ι} (hinj : Function.Injective u) {U : Finset ι} (hU : ∀ a, a ∈ U ↔ ∃ i, u i = a)
    (g : ι → K) : ∑ i, g (u i) = ∑ a ∈ U, g a := by
  have e : U = Finset.univ.image u := by
    ext a; rw [hU]; simp
  rw [e, Finset.sum_image (fun i _ j _ h => hinj h)]

lemma sum_enum_filter {n : ℕ} {u : Fin n → ι} (hinj : Function.Injective u) {U : Finset ι}
    (hU : ∀ a, a ∈ U ↔ ∃ i, u i = a) (D : ι → Bool) (b : Bool) (g : ι → K) :
    ∑ i with D (u i) = b, g (u i) = ∑ a ∈ U with D a = b, g a := by
  rw [Finset.sum_filter, Finset.sum_filter]
  exact sum_enum hinj hU fun a => if D a = b then g a else 0

lemma did2x2_enum {n : ℕ} {u : Fin n → ι} (hinj : Function.Injective u) {U : Finset ι} (hU : ∀ a, a ∈ U ↔ ∃ i, u i = a)
    (D : ι → Bool) (W Y0 Y1 : ι → K) {c : K} (hc : 0 < c) :
    did2x2 (fun i => W (u i) / c) (fun i => D (u i)) (fun i => Y1 (u i)) (fun i => Y0 (u i)) = unitDid U D W Y0 Y1 := by
  have hw : (fun i => W (u i) / c) = fun i => c⁻¹ * W (u i) := by funext i; rw [div_eq_inv_mul]
  unfold did2x2 unitDid
  rw [hw, wavg_scale (inv_ne_zero hc.ne'), wavg_scale (inv_ne_zero hc.ne')]
  unfold wavg
  rw [sum_enum_filter hinj hU D true (fun a => W a * (Y1 a - Y0 a)), sum_enum_filter hinj hU D true W,
    sum_enum_filter hinj hU D false (fun a => W a * (Y1 a - Y0 a)), sum_enum_filter hinj hU D false W]

lemma bothArms_enum {n : ℕ} {u : Fin n → ι} (hinj : Function.Injective u) {U : Finset ι}
    (hU : ∀ a, a ∈ U ↔ ∃ i, u i = a) (D : ι → Bool) (W : ι → K) {c : K} (hc : 0 < c) (h0 : ∀ a ∈ U, 0 ≤ W a)
    (hT : 0 < ∑ a ∈ U with D a = true, W a) (hC : 0 < ∑ a ∈ U with D a = false, W a) :
    BothArms (fun i => W (u i) / c) (fun i => D (u i)) := by
  refine ⟨fun i => div_nonneg (h0 _ ((hU _).2 ⟨i, rfl⟩)) hc.le, ?_, ?_⟩
  · rw [← Finset.sum_div, sum_enum_filter hinj hU D true W]; exact div_pos hT hc
  · rw [← Finset.sum_div, sum_enum_filter hinj hU D false W]; exact div_pos hC hc

lemma share_enum {n : ℕ} {u : Fin n → ι} (hinj : Function.Injective u) {U : Finset ι} (hU : ∀ a, a ∈ U ↔ ∃ i, u i = a)
    (D : ι → Bool) (W : ι → K) {c : K} (hc : 0 < c) :
    treatedShare (fun i => W (u i) / c) (fun i => D (u i)) = unitShare U D W := by
  unfold treatedShare unitShare
  rw [← Finset.sum_div, ← Finset.sum_div, div_div_div_cancel_right₀ hc.ne', sum_enum_filter hinj hU D true W,
    sum_enum hinj hU W]

lemma lo_pos : (0 : K) < lo := by unfold lo; positivity
lemma hi_lt : (hi : K) < 1 := by unfold hi; linarith [lo_pos (K := K), show (lo : K) = 1 / 1000000 from rfl]
lemma lo_le_hi : (lo : K) ≤ hi := by unfold lo hi; norm_num

/-- The common core of C217. -/
theorem panel_core (f : Fits Unit K) (hf : InterceptFits f) (e : Est) (level : K) {df : List (Row ι ℤ (Obs Unit K))}
    {t0 t1 : ℤ} {D : ι → Bool} {W Y0 Y1 : ι → K} (h : PanelFrame df t0 t1 D W Y0 Y1)
    (hx : ∀ r ∈ df, ∀ v, r.val.v = some v → v.x () = 1)
    (he : (e = .impPanel ∨ e = .regPanel) ∨
      ((e = .tradPanel ∨ e = .stdIpwPanel) ∧ min hi (max lo (unitShare (usable df t0 t1) D W)) < level) ∨
      (e = .ipwPanel ∧ lo ≤ unitShare (usable df t0 t1) D W ∧ unitShare (usable df t0 t1) D W ≤ hi ∧
        unitShare (usable df t0 t1) D W < level)) :
    runFrame f e true level df = .ok (some (unitDid (usable df t0 t1) D W Y0 Y1)) := by
  obtain ⟨n, u, c, x, hc, hinj, hU, hxr, hrun⟩ := panel_arrays f e level h
  have hx1 : ∀ i, x i () = 1 := by
    intro i
    obtain ⟨r, hr, _, _, v, hv, hxv⟩ := hxr i
    rw [hxv]; exact hx r hr v hv
  have h0 : ∀ a ∈ usable df t0 t1, 0 ≤ W a := by
    intro a ha
    obtain ⟨r, hr, hra, _⟩ := row_of_usable ha t0 (Or.inl rfl)
    rw [← hra]; exact h.nonneg r hr
  have hb := bothArms_enum hinj hU D W hc h0 h.treated h.control
  have hsh := share_enum hinj hU D W hc
  have hdid := did2x2_enum hinj hU D W Y0 Y1 hc
  have hnotB : ∀ v : Fin n → K, ∑ i with notB (fun i => D (u i)) i = true, v i = ∑ i with D (u i) = false, v i := by
    intro v
    apply Finset.sum_congr _ fun _ _ => rfl
    ext i; simp [notB]
  have hols := hf.ols n (normalize fun i => W (u i) / c) (notB fun i => D (u i)) x (fun i => Y1 (u i) - Y0 (u i)) hx1
    (by rw [hnotB]; exact hb.norm.control.ne')
  obtain ⟨p, hp, hsc⟩ := hf.logit n (normalize fun i => W (u i) / c) (fun i => D (u i)) x hx1 hb.norm.total.ne'
  rw [hrun]
  rcases he with (rfl | rfl) | ⟨rfl | rfl, hl⟩ | ⟨rfl, hl1, hl2, hl3⟩
  · unfold panelEst
    dsimp only
    rw [imp_no_covariates _ _ _ _ _ _ _ _ _ _ lo_pos hi_lt lo_le_hi hx1 hb (hf.ipt n _ _ x hx1)
      (fun v hv => hf.ols n v _ x _ hx1 hv), hdid]
    rfl
  · unfold panelEst
    dsimp only
    rw [C25_reg_no_covariates _ _ _ _ _ _ hx1 hb hols, hdid]
    rfl
  · unfold panelEst
    dsimp only
    rw [C25_dr_no_covariates _ _ _ _ _ _ _ _ _ _ lo_pos hi_lt hx1 hb lo_le_hi hols ⟨p, hp⟩ (by rw [hp]; exact hsc)
      (by rw [hsh]; exact hl), hdid]
    rfl
  · unfold panelEst
    dsimp only
    rw [C25_ipw_no_covariates _ _ _ _ _ _ _ _ _ lo_pos hi_lt hx1 hb lo_le_hi ⟨p, hp⟩ (by rw [hp]; exact hsc)
      (by rw [hsh]; exact hl), hdid]
    rfl
  · unfold panelEst
    dsimp only
    rw [ht_no_covariates _ _ _ _ _ _ _ _ _ hi_lt hx1 hb ⟨p, hp⟩ (by rw [hp]; exact hsc)
      (by rw [hsh]; exact ⟨hl1, hl2⟩) (by rw [hsh]; exact hl3), hdid]
    rfl

/-- **C217.** On a complete two-period panel without covariates, `drdid` with the default method and `ordid` return the
weighted mean change of the treated units minus that of the comparison units, over exactly the units observed once in each
period — whatever the order of the rows, duplicated or missing unit-periods, and the scale of the weights. -/
theorem C217_imp_and_or (f : Fits Unit K) (hf : InterceptFits f) (o : Opts K) {df : List (Row ι ℤ (Obs Unit K))}
    {t0 t1 : ℤ} {D : ι → Bool} {W Y0 Y1 : ι → K} (h : PanelFrame df t0 t1 D W Y0 Y1)
    (hx : ∀ r ∈ df, ∀ v, r.val.v = some v → v.x () = 1) (ho : CommonOptions o) (hp : o.panel = true)
    (hl : 0 < o.level ∧ o.level < 1) :
    (o.est = "imp" → drdidCall f o df = .ok (some (unitDid (usable df t0 t1) D W Y0 Y1))) ∧
    ordidCall f o df = .ok (some (unitDid (usable df t0 t1) D W Y0 Y1)) := by
  obtain ⟨h1, h2, h3, h4⟩ := ho
  constructor
  · intro he
    have hch : drChoose o = .ok .impPanel := by
      have : ¬ o.nBoot < 1 := by omega
      rcases h3 with h3 | h3 <;> simp [drChoose, h1, h2 hp, hp, he, hl.1, hl.2, h3, this]
    unfold drdidCall
    rw [hch, hp]
    exact panel_core f hf _ _ h hx (Or.inl (Or.inl rfl))
  · have hch : orChoose o = .ok .regPanel := by
      have : ¬ o.nBoot < 1 := by omega
      rcases h3 with h3 | h3 <;> simp [orChoose, h1, h2 hp, hp, h3, this]
    unfold ordidCall
    rw [hch, hp]
    exact panel_core f hf _ _ h hx (Or.inl (Or.inr rfl))

/-- **C217.** The same number is returned by `drdid` with `est_method="trad"` and by `ipwdid` with `"std_ipw"` as soon as
the treated share of the weight (kept within 1e-6 of 0 and 1) is below the trimming level. -/
theorem C217_trad_and_ipw (f : Fits Unit K) (hf : InterceptFits f) (o : Opts K) {df : List (Row ι ℤ (Obs Unit K))}
    {t0 t1 : ℤ} {D : ι → Bool} {W Y0 Y1 : ι → K} (h : PanelFrame df t0 t1 D W Y0 Y1)
    (hx : ∀ r ∈ df, ∀ v, r.val.v = some v → v.x () = 1) (ho : CommonOptions o) (hp : o.panel = true)
    (hl : 0 < o.level ∧ o.level < 1) (hs : min hi (max lo (unitShare (usable df t0 t1) D W)) < o.level) :
    (o.est = "trad" → drdidCall f o df = .ok (some (unitDid (usable df t0 t1) D W Y0 Y1))) ∧
    (o.est = "std_ipw" → ipwdidCall f o df = .ok (some (unitDid (usable df t0 t1) D W Y0 Y1))) := by
  obtain ⟨h1, h2, h3, h4⟩ := ho
  have hn : ¬ o.nBoot < 1 := by omega
  constructor
  · intro he
    have hch : drChoose o = .ok .tradPanel := by
      rcases h3 with h3 | h3 <;> simp [drChoose, h1, h2 hp, hp, he, hl.1, hl.2, h3, hn]
    unfold drdidCall
    rw [hch, hp]
    exact panel_core f hf _ _ h hx (Or.inr (Or.inl ⟨Or.inl rfl, hs⟩))
  · intro he
    have hch : ipwChoose o = .ok .stdIpwPanel := by
      rcases h3 with h3 | h3 <;> simp [ipwChoose, h1, h2 hp, hp, he, hl.1, hl.2, h3, hn]
    unfold ipwdidCall
    rw [hch, hp]
    exact panel_core f hf _ _ h hx (Or.inr (Or.inl ⟨Or.inr rfl, hs⟩))

/-- **C217.** So does `ipwdid` with the default method, when the treated share is at least 1e-6 away from 0 and 1. -/
theorem C217_ht (f : Fits Unit K) (hf : InterceptFits f) (o : Opts K) {df : List (Row ι ℤ (Obs Unit K))}
    {t0 t1 : ℤ} {D : ι → Bool} {W Y0 Y1 : ι → K} (h : PanelFrame df t0 t1 D W Y0 Y1)
    (hx : ∀ r ∈ df, ∀ v, r.val.v = some v → v.x () = 1) (ho : CommonOptions o) (hp : o.panel = true)
    (hl : 0 < o.level ∧ o.level < 1)
    (hs : 1 / 1000000 ≤ unitShare (usable df t0 t1) D W ∧ unitShare (usable df t0 t1) D W ≤ 1 - 1 / 1000000)
    (hs' : unitShare (usable df t0 t1) D W < o.level) (he : o.est = "ipw") :
    ipwdidCall f o df = .ok (some (unitDid (usable df t0 t1) D W Y0 Y1)) := by
  obtain ⟨h1, h2, h3, h4⟩ := ho
  have hn : ¬ o.nBoot < 1 := by omega
  have hch : ipwChoose o = .ok .ipwPanel := by
    rcases h3 with h3 | h3 <;> simp [ipwChoose, h1, h2 hp, hp, he, hl.1, hl.2, h3, hn]
  unfold ipwdidCall
  rw [hch, hp]
  exact panel_core f hf _ _ h hx (Or.inr (Or.inr ⟨rfl, hs.1, hs.2, hs'⟩))

/-! ### A concrete frame and concrete fits -/

/-- Weighted mean regression and treated-share logit on a column of ones. -/
def meanFits : Fits Unit ℚ where
  ols := fun n w sel x y _ => wavg w (fun i => sel i = true) y
  logit := fun n w d x _ => treatedShare w d
  ipt := fun n w d x _ => treatedShare w d

lemma meanFits_ok : InterceptFits meanFits := by
  refine ⟨?_, ?_, ?_⟩
  · intro n w sel x y hx hw k
    have := wavg_resid w y (fun i => sel i = true) hw
    simp only [meanFits, hx, Finset.univ_unique, PUnit.default_eq_unit, Finset.sum_singleton, one_mul, mul_one]
    exact this
  · intro n w d x hx hw
    refine ⟨treatedShare w d, rfl, ?_⟩
    intro k
    simp only [hx, mul_one, mul_sub, Finset.sum_sub_distrib, ← Finset.sum_mul, mul_ite, mul_zero]
    unfold treatedShare
    rw [Finset.sum_filter]
    field_simp
    ring
  · intro n w d x hx
    exact ⟨_, rfl⟩

/-- Row of the example frame. -/
def exRow (u : ℕ) (t d : ℤ) (y w : ℚ) : Row ℕ ℤ (Obs Unit ℚ) := ⟨u, t, ⟨d, some ⟨y, w, fun _ => 1⟩⟩⟩

/-- Units 1 (treated), 2 and 5 (comparison) are complete, unit 3 has two pre rows, unit 4 only a post row. -/
def exFrame : List (Row ℕ ℤ (Obs Unit ℚ)) :=
  [exRow 2 7 0 5 1, exRow 1 5 1 2 3, exRow 3 5 1 9 1, exRow 5 7 0 4 2, exRow 2 5 0 4 1, exRow 3 5 1 8 1,
   exRow 4 7 0 6 2, exRow 1 7 1 7 3, exRow 5 5 0 1 2]

def exD (u : ℕ) : Bool := u = 1 ∨ u = 3
def exWt (u : ℕ) : ℚ := if u = 1 then 3 else if u = 5 ∨ u = 4 then 2 else 1
def exY0 (u : ℕ) : ℚ := if u = 1 then 2 else if u = 2 then 4 else 1
def exY1 (u : ℕ) : ℚ := if u = 1 then 7 else if u = 2 then 5 else 4

lemma exUsable : usable exFrame 5 7 = {1, 2, 5} := by decide +kernel

lemma exFrame_ok : PanelFrame exFrame 5 7 exD exWt exY0 exY1 := by
  refine ⟨by decide, ?_, ?_, ?_, ?_, ?_, ?_, ?_, ?_⟩
  · simp [exFrame, exRow]
  · simp [exFrame, exRow, exD]
  · simp [exFrame, exRow, exWt]
  · simp [exFrame, exRow, exWt]
  · rw [exUsable]; simp [exFrame, exRow, exY0]
  · rw [exUsable]; simp [exFrame, exRow, exY1]
  · rw [exUsable]; decide +kernel
  · rw [exUsable]; decide +kernel

lemma exFrame_x : ∀ r ∈ exFrame, ∀ v, r.val.v = some v → v.x () = 1 := by
  simp [exFrame, exRow]

/-- All hypotheses of C217 hold for the example, and the answer is 5 − 7/3. -/
example : ordidCall meanFits exOpts exFrame = .ok (some (8 / 3)) ∧ drdidCall meanFits exOpts exFrame = .ok (some (8 / 3)) := by
  have h := C217_imp_and_or meanFits meanFits_ok exOpts exFrame_ok exFrame_x
    (by simp [CommonOptions, exOpts]) rfl (by simp [exOpts]; norm_num)
  have e : unitDid (usable exFrame 5 7) exD exWt exY0 exY1 = 8 / 3 := by rw [exUsable]; decide +kernel
  rw [e] at h
  exact ⟨h.2, h.1 rfl⟩

example : (1 : ℚ) / 1000000 ≤ unitShare (usable exFrame 5 7) exD exWt ∧
    unitShare (usable exFrame 5 7) exD exWt < 199 / 200 := by rw [exUsable]; decide +kernel

/-! ## C218: the order of the rows -/

lemma all_perm {A : Type*} {l m : List A} (h : l.Perm m) (p : A → Bool) : l.all p = m.all p := by
  rw [Bool.eq_iff_iff, List.all_eq_true, List.all_eq_true]
  exact ⟨fun hl x hx => hl x (h.mem_iff.2 hx), fun hl x hx => hl x (h.mem_iff.1 hx)⟩

lemma any_perm {A : Type*} {l m : List A} (h : l.Perm m) (p : A → Bool) : l.any p = m.any p := by
  rw [Bool.eq_iff_iff, List.any_eq_true, List.any_eq_true]
  exact ⟨fun ⟨x, hx, hp⟩ => ⟨x, h.mem_iff.1 hx, hp⟩, fun ⟨x, hx, hp⟩ => ⟨x, h.mem_iff.2 hx, hp⟩⟩

theorem runFrame_perm (f : Fits κ K) (e : Est) (level : K) {df df' : List (Row ι ℤ (Obs κ K))} (h : df.Perm df') :
    runFrame f e true level df = runFrame f e true level df' := by
  have h1 : dataOk df = dataOk df' := by
    unfold dataOk
    rw [nUnique_perm (h.map Row.t), nUnique_perm (h.map fun r => r.val.d), all_perm h]
  have h2 : panelOk df = panelOk df' := by
    unfold panelOk
    rw [all_perm h, any_perm h]
    congr 1
    · congr 1; funext r; rw [(h.filter _).length_eq]
    · congr 1; funext r; rw [nUnique_perm ((h.filter _).map fun s => s.val.d)]
  have h3 : weightsOk df = weightsOk df' := by unfold weightsOk; rw [all_perm h]
  have hc : (df.filterMap full?).Perm (df'.filterMap full?) := h.filterMap _
  unfold runFrame
  rw [h1, h2, h3]
  by_cases hd : dataOk df' = false
  · rw [if_pos hd, if_pos hd]
  rw [if_neg hd, if_neg hd]
  congr 1
  congr 1
  have hdn : dropNulls true df = none ∧ dropNulls true df' = none ∨
      dropNulls true df = some (df.filterMap full?) ∧ dropNulls true df' = some (df'.filterMap full?) ∧
        (df.filterMap full?).length = df.length := by
    unfold dropNulls
    dsimp only
    rw [hc.length_eq, h.length_eq]
    by_cases hlt : (df'.filterMap full?).length < df'.length
    · left; simp [hlt]
    · right
      have := List.length_filterMap_le full? df'
      refine ⟨by simp [hlt], by simp [hlt], by omega⟩
  rcases hdn with ⟨a, b⟩ | ⟨a, b, hlen⟩
  · rw [a, b]
  · rw [a, b]
    dsimp only
    rw [if_pos rfl, if_pos rfl]
    have hm : meanW (df.filterMap full?) = meanW (df'.filterMap full?) := by
      unfold meanW
      rw [(hc.map _).sum_eq, hc.length_eq]
    have hn : (normW (df.filterMap full?)).Perm (normW (df'.filterMap full?)) := by
      unfold normW
      rw [hm]
      exact hc.map _
    have ht : nUnique ((normW (df.filterMap full?)).map Row.t) = 2 := by
      have e1 : (normW (df.filterMap full?)).map Row.t = df.map Row.t := by
        have hnn : ∀ r ∈ df, r.val.v ≠ none := by
          intro r hr hv
          have hex : (df.filterMap full?).length < df.length := by
            clear a b hlen hn hm h1 h2 h3 hc h hd
            induction df with
            | nil => simp at hr
            | cons s l ih =>
              rcases List.mem_cons.1 hr with rfl | hr'
              · rw [List.filterMap_cons]
                have : full? r = none := by unfold full?; rw [hv]; rfl
                rw [this]
                simp only [List.length_cons]
                have := List.length_filterMap_le full? l
                omega
              · have := ih hr'
                rw [List.filterMap_cons]
                cases full? s <;> simp only [List.length_cons] <;> omega
          omega
        rw [filterMap_full hnn, normW_map, List.map_map]
        rfl
      rw [e1, nUnique_perm (h.map Row.t)]
      simp only [Bool.not_eq_false] at hd
      unfold dataOk at hd
      simp only [Bool.and_eq_true, decide_eq_true_eq] at hd
      exact hd.1.1
    rw [twoBuild_perm invKey hn ht]

/-- **C218.** On panel data the order of the rows does not matter: whatever the data and options, the three functions give
the same answer (estimate, NaN or error) for any rearrangement of the rows. -/
theorem C218_row_order (f : Fits κ K) (o : Opts K) (hp : o.panel = true) {df df' : List (Row ι ℤ (Obs κ K))}
    (h : df.Perm df') :
    drdidCall f o df = drdidCall f o df' ∧ ipwdidCall f o df = ipwdidCall f o df' ∧
      ordidCall f o df = ordidCall f o df' := by
  unfold drdidCall ipwdidCall ordidCall
  rw [hp]
  refine ⟨?_, ?_, ?_⟩
  · cases drChoose o with
    | error e => rfl
    | ok e => exact runFrame_perm f e o.level h
  · cases ipwChoose o with
    | error e => rfl
    | ok e => exact runFrame_perm f e o.level h
  · cases orChoose o with
    | error e => rfl
    | ok e => exact runFrame_perm f e o.level h

example : ordidCall meanFits exOpts exFrame.reverse = .ok (some (8 / 3)) := by
  have h := C217_imp_and_or meanFits meanFits_ok exOpts exFrame_ok exFrame_x
    (by simp [CommonOptions, exOpts]) rfl (by simp [exOpts]; norm_num)
  have e : unitDid (usable exFrame 5 7) exD exWt exY0 exY1 = 8 / 3 := by rw [exUsable]; decide +kernel
  rw [e] at h
  rw [(C218_row_order meanFits exOpts rfl (List.reverse_perm exFrame)).2.2]
  exact h.2

end Verif.DR.Entry
