import Verif.Triple.Deriv
import Verif.DR.JackknifeRC

set_option linter.unusedSectionVars false
set_option linter.unusedSimpArgs false

/-!
# Influence values of the triple difference are derivatives of its estimate (C148), repeated cross-sections
-/

namespace Verif.Triple

open Verif.DR (mean ind fitted dot upw psOf RefitOLS RefitLogit IsGramInv wmean cellSel preK postK hmean alrOLS preGap
  wTreatRC wContRC)
open Filter Topology

variable {ι κ : Type*} [Fintype ι] [Fintype κ] [DecidableEq ι] [DecidableEq κ] {sg : ι → ℕ}

/-! ## Specification -/

/-- Numerical fits do not depend on the scale of the weights. -/
structure ScaleFreeRC (F : FitsRC sg κ ℝ) : Prop where
  ols : ∀ c s u sel x y, 0 < s → F.ols c (fun i => s * u i) sel x y = F.ols c u sel x y
  logit : ∀ c s u d x, 0 < s → F.logit c (fun i => s * u i) d x = F.logit c u d x

/-- Observations of one (period, arm) cell as a number. -/
noncomputable def cellNum (sg : ι → ℕ) (c : ℕ) (post : ι → Bool) (pre treat : Bool) (i : Sub sg c) : ℝ :=
  (if treat then ind (pa4 sg c) i else 1 - ind (pa4 sg c) i) *
    (if pre then preK (onSub sg c post) i else postK (onSub sg c post) i)

/-- The fits are exact and smooth at the weights `w` in the direction of observation `i`: in each comparison with `i` in it
the regressions of the two periods (among the comparison arm; for `dr` in both arms) solve the normal equations and the
scores are logit maximum-likelihood scores for nearby weights, the matrices in the influence function are the inverses they
stand for, and no score sits at the cap or at the trimming level. -/
structure SmoothRC (F : FitsRC sg κ ℝ) (m : Est) (hi level : ℝ) (w : ι → ℝ) (x : ι → κ → ℝ) (y : ι → ℝ) (post : ι → Bool)
    (i : ι) : Prop where
  ols : m ≠ .ipw → ∀ c ∈ [1, 2, 3], ∀ h : sg i = 4 ∨ sg i = c, ∀ pre treat : Bool, (treat = true → m = .dr) →
    RefitOLS (onSub sg c w) (⟨i, h⟩ : Sub sg c) (cellSel (pa4 sg c) (onSub sg c post) pre treat) (onSub sg c x)
      (onSub sg c y) (fun s => F.ols c (upw (onSub sg c w) ⟨i, h⟩ s)
        (cellSel (pa4 sg c) (onSub sg c post) pre treat) (onSub sg c x) (onSub sg c y)) ∧
    IsGramInv (fun j : Sub sg c => w j.1 * cellNum sg c post pre treat j) (onSub sg c x) (rcM F c w x post pre treat)
  logit : m ≠ .reg → ∀ c ∈ [1, 2, 3], ∀ h : sg i = 4 ∨ sg i = c, ∃ γ : ℝ → κ → ℝ,
    RefitLogit (onSub sg c w) (⟨i, h⟩ : Sub sg c) (pa4 sg c) (onSub sg c x) γ ∧
    (∀ᶠ s in 𝓝 0, F.logit c (upw (onSub sg c w) ⟨i, h⟩ s) (pa4 sg c) (onSub sg c x) = psOf (onSub sg c x) (γ s)) ∧
    IsGramInv (fun j => psOf (onSub sg c x) (γ 0) j * (1 - psOf (onSub sg c x) (γ 0) j) * onSub sg c w j) (onSub sg c x)
      (F.hess c (psOf (onSub sg c x) (γ 0)))
  interior : m ≠ .reg → ∀ c ∈ [1, 2, 3], ∀ j : Sub sg c,
    F.logit c (onSub sg c w) (pa4 sg c) (onSub sg c x) j < hi ∧ F.logit c (onSub sg c w) (pa4 sg c) (onSub sg c x) j ≠ level

/-- Distance of the reported influence value of one comparison from the derivative: `0` except for `dr`, where it is twice the
pre-period regression correction. -/
noncomputable def gapRC (F : FitsRC sg κ ℝ) (m : Est) (hi level : ℝ) (c : ℕ) (w : ι → ℝ) (x : ι → κ → ℝ) (y : ι → ℝ)
    (post : ι → Bool) (i : Sub sg c) : ℝ :=
  if m = .dr then
    2 * dot (alrOLS (fun j => (1 - ind (pa4 sg c) j) * preK (onSub sg c post) j) (onSub sg c w)
        (fun j => y j.1 - rcOut F m c w x y post true false j) (onSub sg c x) (rcM F c w x post true false) i)
      (preGap (pa4 sg c) (rcKeep F m level c w x) (onSub sg c post) (rcPs F m hi c w x) (onSub sg c w) (onSub sg c x))
  else 0

/-! ## Proof -/

/-- Trimming as a function of the weights of the comparison. -/
noncomputable def keepS (F : FitsRC sg κ ℝ) (m : Est) (level : ℝ) (c : ℕ) (x : ι → κ → ℝ) (u : Sub sg c → ℝ)
    (i : Sub sg c) : Bool :=
  if m = .reg then true else if pa4 sg c i then true else decide (F.logit c u (pa4 sg c) (onSub sg c x) i < level)

/-- Scores as a function of the weights of the comparison. -/
noncomputable def psS (F : FitsRC sg κ ℝ) (m : Est) (hi : ℝ) (c : ℕ) (x : ι → κ → ℝ) (u : Sub sg c → ℝ) (i : Sub sg c) : ℝ :=
  if m = .reg then 1 else min (F.logit c u (pa4 sg c) (onSub sg c x) i) hi

/-- Regression of one cell as a function of the weights of the comparison. -/
noncomputable def outS (F : FitsRC sg κ ℝ) (c : ℕ) (x : ι → κ → ℝ) (y : ι → ℝ) (post : ι → Bool) (pre treat : Bool)
    (u : Sub sg c → ℝ) : Sub sg c → ℝ :=
  fitted (onSub sg c x) (F.ols c u (cellSel (pa4 sg c) (onSub sg c post) pre treat) (onSub sg c x) (onSub sg c y))

/-- One comparison as a function of the weights of its observations. -/
noncomputable def attSubRC (F : FitsRC sg κ ℝ) (m : Est) (hi level : ℝ) (c : ℕ) (x : ι → κ → ℝ) (y : ι → ℝ)
    (post : ι → Bool) (u : Sub sg c → ℝ) : ℝ :=
  match m with
  | .reg => DR.regRC (pa4 sg c) (onSub sg c post) (outS F c x y post true false u) (outS F c x y post false false u)
      (onSub sg c y) u
  | .ipw => DR.ipwRC (pa4 sg c) (keepS F .ipw level c x u) (onSub sg c post) (psS F .ipw hi c x u) (onSub sg c y) u
  | .dr => DR.drRC (pa4 sg c) (keepS F .dr level c x u) (onSub sg c post) (psS F .dr hi c x u)
      (outS F c x y post true false u) (outS F c x y post false false u) (outS F c x y post true true u)
      (outS F c x y post false true u) (onSub sg c y) u

lemma compAttRC_sub (F : FitsRC sg κ ℝ) (m : Est) (hi level : ℝ) (c : ℕ) (w : ι → ℝ) (x : ι → κ → ℝ) (y : ι → ℝ)
    (post : ι → Bool) : compAttRC F m hi level c w x y post = attSubRC F m hi level c x y post (onSub sg c w) := by
  cases m <;> rfl

/-- No guard stops the comparison. -/
def RunsS (F : FitsRC sg κ ℝ) (m : Est) (hi level : ℝ) (c : ℕ) (x : ι → κ → ℝ) (post : ι → Bool) (u : Sub sg c → ℝ) : Prop :=
  mean (wTreatRC (pa4 sg c) (keepS F m level c x u) u (preK (onSub sg c post))) ≠ 0 ∧
  mean (wTreatRC (pa4 sg c) (keepS F m level c x u) u (postK (onSub sg c post))) ≠ 0 ∧
  (m ≠ .reg → mean (wContRC (pa4 sg c) (keepS F m level c x u) (psS F m hi c x u) u (preK (onSub sg c post))) ≠ 0 ∧
    mean (wContRC (pa4 sg c) (keepS F m level c x u) (psS F m hi c x u) u (postK (onSub sg c post))) ≠ 0)

lemma rcGuard_none_sub (F : FitsRC sg κ ℝ) (m : Est) (hi level : ℝ) (c : ℕ) (w : ι → ℝ) (x : ι → κ → ℝ) (post : ι → Bool) :
    rcGuard m (pa4 sg c) (rcKeep F m level c w x) (onSub sg c post) (rcPs F m hi c w x) (onSub sg c w) = none ↔
      RunsS F m hi level c x post (onSub sg c w) := by
  have e1 : rcKeep F m level c w x = keepS F m level c x (onSub sg c w) := rfl
  have e2 : rcPs F m hi c w x = psS F m hi c x (onSub sg c w) := rfl
  rw [e1, e2]
  unfold rcGuard RunsS
  split_ifs with h1 h2 <;> simp <;> tauto

lemma compDidRC_iff (F : FitsRC sg κ ℝ) (m : Est) (hi level : ℝ) (c : ℕ) (w : ι → ℝ) (x : ι → κ → ℝ) (y : ι → ℝ)
    (post : ι → Bool) (r : ℝ × (ι → ℝ)) : compDidRC F m hi level c w x y post = .ok r ↔
      RunsS F m hi level c x post (onSub sg c w) ∧
        r = (compAttRC F m hi level c w x y post, scatter sg c (compIFRC F m hi level c w x y post)) := by
  unfold compDidRC
  cases hg : rcGuard m (pa4 sg c) (rcKeep F m level c w x) (onSub sg c post) (rcPs F m hi c w x) (onSub sg c w) with
  | none => simp [(rcGuard_none_sub ..).1 hg, eq_comm]
  | some e =>
    have : ¬ RunsS F m hi level c x post (onSub sg c w) := fun h => by rw [(rcGuard_none_sub ..).2 h] at hg; cases hg
    simp [this]

lemma wTreat_keep (F : FitsRC sg κ ℝ) (m : Est) (level : ℝ) (c : ℕ) (x : ι → κ → ℝ) (u u' : Sub sg c → ℝ) (q : Sub sg c → ℝ) :
    wTreatRC (pa4 sg c) (keepS F m level c x u') u q = fun j => u j * (ind (pa4 sg c) j * q j) := by
  funext j
  unfold wTreatRC keepS
  by_cases h : pa4 sg c j = true <;> simp [ind, h]

lemma attSubRC_deriv (F : FitsRC sg κ ℝ) (m : Est) (hi level : ℝ) {c : ℕ} (hc3 : c ∈ [1, 2, 3]) (w : ι → ℝ)
    (hw : ∀ i, 0 ≤ w i) (x : ι → κ → ℝ) (y : ι → ℝ) (post : ι → Bool) (i : ι) (h : sg i = 4 ∨ sg i = c)
    (S : SmoothRC F m hi level w x y post i) (hR : RunsS F m hi level c x post (onSub sg c w)) :
    HasDerivAt (fun s => attSubRC F m hi level c x y post (upw (onSub sg c w) ⟨i, h⟩ s))
      (compIFRC F m hi level c w x y post ⟨i, h⟩ + gapRC F m hi level c w x y post ⟨i, h⟩) 0 ∧
    ∀ᶠ s in 𝓝 0, RunsS F m hi level c x post (upw (onSub sg c w) ⟨i, h⟩ s) := by
  obtain ⟨hT0, hT1, hCc⟩ := hR
  set d := pa4 sg c with hd
  set P := onSub sg c post with hP
  set X := onSub sg c x with hX
  set Y := onSub sg c y with hY
  set W := onSub sg c w with hW
  have hcell : ∀ pre treat, cellNum sg c post pre treat = fun j => (if treat then ind d j else 1 - ind d j) *
      (if pre then preK P j else postK P j) := fun _ _ => rfl
  have hsum : mean (fun j => W j * ind d j) ≠ 0 := by
    rw [wTreat_keep] at hT0 hT1
    have hp : 0 ≤ mean (fun j => W j * (ind d j * preK P j)) := div_nonneg (Finset.sum_nonneg fun j _ =>
      mul_nonneg (hw _) (by cases h : d j <;> cases h' : P j <;> simp [ind, preK, h, h'])) (Nat.cast_nonneg _)
    have hq : 0 ≤ mean (fun j => W j * (ind d j * postK P j)) := div_nonneg (Finset.sum_nonneg fun j _ =>
      mul_nonneg (hw _) (by cases h : d j <;> cases h' : P j <;> simp [ind, postK, h, h'])) (Nat.cast_nonneg _)
    have e : mean (fun j => W j * ind d j) =
        mean (fun j => W j * (ind d j * preK P j)) + mean (fun j => W j * (ind d j * postK P j)) := by
      rw [← DR.mean_add']
      congr 1; funext j; unfold preK postK; ring
    rw [e]
    have := lt_of_le_of_ne hp (Ne.symm hT0)
    positivity
  have hTev : ∀ (q : Sub sg c → ℝ), mean (fun j => W j * (ind d j * q j)) ≠ 0 →
      ∀ᶠ s in 𝓝 0, mean (fun j => upw W (⟨i, h⟩ : Sub sg c) s j * (ind d j * q j)) ≠ 0 := by
    intro q hq
    have hw := DR.hasDerivAt_wsum W (⟨i, h⟩ : Sub sg c) (f := fun k _ => ind d k * q k)
      (fun k => hasDerivAt_const 0 (ind d k * q k))
    exact hw.continuousAt.eventually_ne (by rw [DR.upw_zero]; exact hq)
  have hT0' := hTev (preK P) (by rw [wTreat_keep] at hT0; exact hT0)
  have hT1' := hTev (postK P) (by rw [wTreat_keep] at hT1; exact hT1)
  by_cases hm : m = .reg
  · subst hm
    obtain ⟨h0, hM0⟩ := S.ols (by decide) c hc3 h true false (by simp)
    obtain ⟨h1, hM1⟩ := S.ols (by decide) c hc3 h false false (by simp)
    rw [hcell] at hM0 hM1
    simp only [Bool.false_eq_true, if_false, if_true] at hM0 hM1
    constructor
    · have e1 : ∀ q : Sub sg c → ℝ, (fun j => W j * ind d j * q j) = fun j => W j * (ind d j * q j) := by
        intro q; funext j; ring
      have hD := DR.C72_reg_rc d P Y W X _ _ _ _ (⟨i, h⟩ : Sub sg c) h0 h1 hM0 hM1
        (by rw [e1]; rw [wTreat_keep] at hT1; exact hT1) (by rw [e1]; rw [wTreat_keep] at hT0; exact hT0) hsum
      refine hD.congr_deriv ?_
      unfold gapRC
      simp only [DR.upw_zero, reduceCtorEq, if_false, add_zero]
      rfl
    · filter_upwards [hT0', hT1'] with s a b
      refine ⟨by rw [wTreat_keep]; exact a, by rw [wTreat_keep]; exact b, fun h => absurd rfl h⟩
  · obtain ⟨γ, hγ, hfit, hH⟩ := S.logit hm c hc3 h
    obtain ⟨hC0, hC1⟩ := hCc hm
    have h0 : F.logit c W d X = psOf X (γ 0) := by
      have := hfit.self_of_nhds; rwa [DR.upw_zero] at this
    have hint := S.interior hm c hc3
    rw [← hW, ← hd, ← hX, h0] at hint
    have hpath := path_interior d X hi level hγ.diff hint
    have hpsev : ∀ᶠ s in 𝓝 0, psS F m hi c x (upw W ⟨i, h⟩ s) = psOf X (γ s) := by
      filter_upwards [hfit, hpath] with s a b
      rw [← b.1]
      funext j
      unfold psS
      rw [if_neg hm, ← hd, ← hX, a]
    have hkev : ∀ᶠ s in 𝓝 0, keepS F m level c x (upw W ⟨i, h⟩ s) = DR.trim level d (psOf X (γ 0)) := by
      filter_upwards [hfit, hpath] with s a b
      rw [← b.2]
      funext j
      unfold keepS DR.trim
      rw [if_neg hm, ← hd, ← hX, a]
    have hps0 : psS F m hi c x W = psOf X (γ 0) := by have := hpsev.self_of_nhds; rwa [DR.upw_zero] at this
    have hk0 : keepS F m level c x W = DR.trim level d (psOf X (γ 0)) := by
      have := hkev.self_of_nhds; rwa [DR.upw_zero] at this
    rw [hk0] at hT0 hT1
    rw [hps0, hk0] at hC0 hC1
    have hCev : ∀ (q : Sub sg c → ℝ), mean (wContRC d (DR.trim level d (psOf X (γ 0))) (psOf X (γ 0)) W q) ≠ 0 →
        ∀ᶠ s in 𝓝 0, mean (wContRC d (DR.trim level d (psOf X (γ 0))) (psOf X (γ s)) (upw W ⟨i, h⟩ s) q) ≠ 0 := by
      intro q hq
      rw [DR.wContRC_upw] at hq
      have hg : ∀ k, HasDerivAt (fun t => γ t k) (_root_.deriv (fun t => γ t k) 0) 0 := fun k => (hγ.diff k).hasDerivAt
      have hw := DR.hasDerivAt_wsum W (⟨i, h⟩ : Sub sg c) (f := fun k s => ind (DR.trim level d (psOf X (γ 0))) k *
          (1 - ind d k) * q k * (psOf X (γ s) k / (1 - psOf X (γ s) k)))
        (fun k => (DR.hasDerivAt_odds X hg k).const_mul _)
      have := hw.continuousAt.eventually_ne (by rw [DR.upw_zero]; exact hq)
      filter_upwards [this] with s hs
      rw [DR.wContRC_upw]
      exact hs
    refine ⟨?_, ?_⟩
    · have eps : rcPs F m hi c w x = psOf X (γ 0) := hps0
      have ek : rcKeep F m level c w x = DR.trim level d (psOf X (γ 0)) := hk0
      cases m with
      | reg => exact absurd rfl hm
      | ipw =>
        have hD := DR.C72_ipw_rc d (DR.trim level d (psOf X (γ 0))) P Y W X _ γ (⟨i, h⟩ : Sub sg c) hγ hH hT1 hT0 hC1 hC0
        have : compIFRC F .ipw hi level c w x y post ⟨i, h⟩ + gapRC F .ipw hi level c w x y post ⟨i, h⟩ =
            DR.ipwRCIF d (DR.trim level d (psOf X (γ 0))) P (psOf X (γ 0)) Y W X (F.hess c (psOf X (γ 0))) ⟨i, h⟩ := by
          unfold gapRC compIFRC
          simp only [reduceCtorEq, if_false, add_zero]
          rw [eps, ek]
        rw [this]
        refine hD.congr_of_eventuallyEq ?_
        filter_upwards [hpsev, hkev] with s a b
        unfold attSubRC
        rw [a, b]
      | dr =>
        obtain ⟨f0, hM0⟩ := S.ols (by decide) c hc3 h true false (by simp)
        obtain ⟨f1, hM1⟩ := S.ols (by decide) c hc3 h false false (by simp)
        obtain ⟨g0, hN0⟩ := S.ols (by decide) c hc3 h true true (by simp)
        obtain ⟨g1, hN1⟩ := S.ols (by decide) c hc3 h false true (by simp)
        rw [hcell] at hM0 hM1 hN0 hN1
        simp only [Bool.false_eq_true, if_false, if_true] at hM0 hM1 hN0 hN1
        have hT : mean (fun j => ind (DR.trim level d (psOf X (γ 0))) j * W j * ind d j) ≠ 0 := by
          have e : (fun j => ind (DR.trim level d (psOf X (γ 0))) j * W j * ind d j) = fun j => W j * ind d j := by
            funext j
            unfold DR.trim
            by_cases h4 : d j = true <;> simp [ind, h4]
          rw [e]; exact hsum
        have hD := DR.C72_dr_rc_gap d (DR.trim level d (psOf X (γ 0))) P Y W X _ _ _ _ _ _ _ _ _ γ (⟨i, h⟩ : Sub sg c)
          f0 f1 g0 g1 hγ hM0 hM1 hN0 hN1 hH hT hT1 hT0 hC1 hC0
        simp only [DR.upw_zero] at hD
        refine (hD.congr_of_eventuallyEq ?_).congr_deriv ?_
        · filter_upwards [hpsev, hkev] with s a b
          unfold attSubRC
          rw [a, b]
          rfl
        · unfold gapRC compIFRC
          rw [if_pos rfl, eps, ek]
          rfl
    · filter_upwards [hT0', hT1', hpsev, hkev, hCev _ hC0, hCev _ hC1] with s a b p k c0 c1
      refine ⟨by rw [wTreat_keep]; exact a, by rw [wTreat_keep]; exact b, fun _ => ?_⟩
      rw [p, k]
      exact ⟨c0, c1⟩

lemma compAttRC_deriv (F : FitsRC sg κ ℝ) (m : Est) (hi level : ℝ) {c : ℕ} (hc3 : c ∈ [1, 2, 3]) (w : ι → ℝ)
    (hw : ∀ i, 0 ≤ w i) (x : ι → κ → ℝ) (y : ι → ℝ) (post : ι → Bool) (i : ι) (S : SmoothRC F m hi level w x y post i)
    (r : ℝ × (ι → ℝ)) (hr : compDidRC F m hi level c w x y post = .ok r) :
    HasDerivAt (fun t => attSubRC F m hi level c x y post (onSub sg c (upw w i t)))
      (ratio sg c * r.2 i + ratio sg c * scatter sg c (gapRC F m hi level c w x y post) i) 0 ∧
    ∀ᶠ t in 𝓝 0, RunsS F m hi level c x post (onSub sg c (upw w i t)) := by
  obtain ⟨hR, rfl⟩ := (compDidRC_iff ..).1 hr
  by_cases h : sg i = 4 ∨ sg i = c
  · obtain ⟨hd, he⟩ := attSubRC_deriv F m hi level hc3 w hw x y post i h S hR
    have hn : Nonempty (Sub sg c) := ⟨⟨i, h⟩⟩
    have hcard : 0 < Fintype.card (Sub sg c) := Fintype.card_pos
    set q : ℝ := (Fintype.card ι : ℝ) / (Fintype.card (Sub sg c) : ℝ) with hq
    have hlin : HasDerivAt (fun t : ℝ => q * t) q 0 := by simpa using (hasDerivAt_id (0:ℝ)).const_mul q
    have ht : Tendsto (fun t : ℝ => q * t) (𝓝 0) (𝓝 0) := by
      have := hlin.continuousAt.tendsto; simpa using this
    constructor
    · have e : (fun t => attSubRC F m hi level c x y post (onSub sg c (upw w i t))) =
          (fun s => attSubRC F m hi level c x y post (upw (onSub sg c w) ⟨i, h⟩ s)) ∘ fun t => q * t := by
        funext t; simp only [Function.comp]; rw [onSub_upw_mem w i h]
      rw [e]
      have hd' : HasDerivAt (fun s => attSubRC F m hi level c x y post (upw (onSub sg c w) ⟨i, h⟩ s))
          (compIFRC F m hi level c w x y post ⟨i, h⟩ + gapRC F m hi level c w x y post ⟨i, h⟩) (q * 0) := by
        rw [mul_zero]; exact hd
      refine (hd'.comp 0 hlin).congr_deriv ?_
      unfold ratio scatter
      simp only
      rw [if_pos hcard, dif_pos h, dif_pos h]
      ring
    · filter_upwards [ht.eventually he] with t b
      rw [onSub_upw_mem w i h]
      exact b
  · simp only [onSub_upw_notMem w i h]
    constructor
    · refine (hasDerivAt_const _ _).congr_deriv ?_
      unfold scatter
      rw [dif_neg h, dif_neg h]
      ring
    · exact Eventually.of_forall fun t => hR

lemma hmean_smul {σ : Type*} [Fintype σ] {s : ℝ} (hs : s ≠ 0) (u v : σ → ℝ) : hmean (fun k => s * u k) v = hmean u v := by
  rw [DR.hmean_eq_wmean, DR.hmean_eq_wmean, wmean_smul hs]

lemma wTreatRC_smul {σ : Type*} (s : ℝ) (d tr : σ → Bool) (u q : σ → ℝ) :
    wTreatRC d tr (fun k => s * u k) q = fun k => s * wTreatRC d tr u q k := by funext k; unfold wTreatRC; ring

lemma wContRC_smul {σ : Type*} (s : ℝ) (d tr : σ → Bool) (ps u q : σ → ℝ) :
    wContRC d tr ps (fun k => s * u k) q = fun k => s * wContRC d tr ps u q k := by funext k; unfold wContRC; ring

lemma tradRC_smul {σ : Type*} [Fintype σ] {s : ℝ} (hs : s ≠ 0) (d tr post : σ → Bool) (ps o0 o1 y u : σ → ℝ) :
    DR.tradRC d tr post ps o0 o1 y (fun k => s * u k) = DR.tradRC d tr post ps o0 o1 y u := by
  unfold DR.tradRC
  simp only [wTreatRC_smul, wContRC_smul, hmean_smul hs]

lemma keepS_smul (F : FitsRC sg κ ℝ) (hF : ScaleFreeRC F) (m : Est) (level : ℝ) (c : ℕ) (x : ι → κ → ℝ)
    {s : ℝ} (hs : 0 < s) (u : Sub sg c → ℝ) : keepS F m level c x (fun k => s * u k) = keepS F m level c x u := by
  funext k; unfold keepS; rw [hF.logit _ _ _ _ _ hs]

lemma psS_smul (F : FitsRC sg κ ℝ) (hF : ScaleFreeRC F) (m : Est) (hi : ℝ) (c : ℕ) (x : ι → κ → ℝ)
    {s : ℝ} (hs : 0 < s) (u : Sub sg c → ℝ) : psS F m hi c x (fun k => s * u k) = psS F m hi c x u := by
  funext k; unfold psS; rw [hF.logit _ _ _ _ _ hs]

lemma outS_smul (F : FitsRC sg κ ℝ) (hF : ScaleFreeRC F) (c : ℕ) (x : ι → κ → ℝ) (y : ι → ℝ) (post : ι → Bool)
    (pre treat : Bool) {s : ℝ} (hs : 0 < s) (u : Sub sg c → ℝ) :
    outS F c x y post pre treat (fun k => s * u k) = outS F c x y post pre treat u := by
  unfold outS; rw [hF.ols _ _ _ _ _ _ hs]

lemma attSubRC_smul (F : FitsRC sg κ ℝ) (hF : ScaleFreeRC F) (m : Est) (hi level : ℝ) (c : ℕ) (x : ι → κ → ℝ) (y : ι → ℝ)
    (post : ι → Bool) {s : ℝ} (hs : 0 < s) (u : Sub sg c → ℝ) :
    attSubRC F m hi level c x y post (fun k => s * u k) = attSubRC F m hi level c x y post u := by
  have e : ∀ a : Sub sg c → ℝ, (fun i => s * u i * a i) = fun i => s * (u i * a i) := by intro a; funext k; ring
  have e2 : ∀ a b : Sub sg c → ℝ, (fun i => s * u i * a i * b i) = fun i => s * (u i * a i * b i) := by
    intro a b; funext k; ring
  have e3 : ∀ a b : Sub sg c → ℝ, (fun i => b i * (s * u i) * a i) = fun i => s * (b i * u i * a i) := by
    intro a b; funext k; ring
  have e4 : ∀ a b q : Sub sg c → ℝ, (fun i => b i * (s * u i) * a i * q i) = fun i => s * (b i * u i * a i * q i) := by
    intro a b q; funext k; ring
  cases m with
  | reg =>
    unfold attSubRC DR.regRC
    simp only [outS_smul F hF _ _ _ _ _ _ hs, e, e2, wmean_smul hs.ne']
  | ipw =>
    unfold attSubRC DR.ipwRC
    simp only [psS_smul F hF _ _ _ _ hs, keepS_smul F hF _ _ _ _ hs, wTreatRC_smul, wContRC_smul, hmean_smul hs.ne']
  | dr =>
    unfold attSubRC DR.drRC
    simp only [psS_smul F hF _ _ _ _ hs, keepS_smul F hF _ _ _ _ hs, outS_smul F hF _ _ _ _ _ _ hs, tradRC_smul hs.ne']
    simp only [e3]
    have e5 : ∀ f : Sub sg c → ℝ, (fun i => ind (keepS F .dr level c x u) i * (s * u i) * ind (pa4 sg c) i * f i) =
      fun i => s * (ind (keepS F .dr level c x u) i * u i * ind (pa4 sg c) i * f i) := fun f => by funext k; ring
    have e6 : (fun i => ind (keepS F .dr level c x u) i * (s * u i) * ind (pa4 sg c) i * (1 - postK (onSub sg c post) i)) =
      fun i => s * (ind (keepS F .dr level c x u) i * u i * ind (pa4 sg c) i * (1 - postK (onSub sg c post) i)) := by
      funext k; ring
    simp only [e5, e6, hmean_smul hs.ne']

lemma runsS_smul (F : FitsRC sg κ ℝ) (hF : ScaleFreeRC F) (m : Est) (hi level : ℝ) (c : ℕ) (x : ι → κ → ℝ)
    (post : ι → Bool) {s : ℝ} (hs : 0 < s) (u : Sub sg c → ℝ) (h : RunsS F m hi level c x post u) :
    RunsS F m hi level c x post (fun k => s * u k) := by
  unfold RunsS at *
  simp only [psS_smul F hF _ _ _ _ hs, keepS_smul F hF _ _ _ _ hs, wTreatRC_smul, wContRC_smul, mean_smul]
  exact ⟨mul_ne_zero hs.ne' h.1, mul_ne_zero hs.ne' h.2.1, fun hm =>
    ⟨mul_ne_zero hs.ne' (h.2.2 hm).1, mul_ne_zero hs.ne' (h.2.2 hm).2⟩⟩

lemma dddRC_iff (F : FitsRC sg κ ℝ) (m : Est) (hi level : ℝ) (y : ι → ℝ) (post : ι → Bool) (x : ι → κ → ℝ) (w0 : ι → ℝ)
    (r : ℝ × (ι → ℝ)) : dddRC F m hi level y post x w0 = .ok r ↔
      (∀ i, 0 ≤ w0 i) ∧ (∀ i, sg i ∈ [1, 2, 3, 4]) ∧ (∃ i, sg i = 4) ∧ ∃ r3 r2 r1,
        compDidRC F m hi level 3 (DR.normalize w0) x y post = .ok r3 ∧
        compDidRC F m hi level 2 (DR.normalize w0) x y post = .ok r2 ∧
        compDidRC F m hi level 1 (DR.normalize w0) x y post = .ok r1 ∧ r = combine3 sg r3 r2 r1 := by
  unfold dddRC
  by_cases h1 : ∃ i, w0 i < 0
  · rw [if_pos h1]
    obtain ⟨i, hi⟩ := h1
    exact ⟨fun h => (by cases h), fun h => absurd (h.1 i) (not_le.2 hi)⟩
  by_cases h2 : ∃ i, sg i ∉ [1, 2, 3, 4]
  · rw [if_neg h1, if_pos h2]
    obtain ⟨i, hi⟩ := h2
    exact ⟨fun h => (by cases h), fun h => absurd (h.2.1 i) hi⟩
  by_cases h3 : ¬ ∃ i, sg i = 4
  · rw [if_neg h1, if_neg h2, if_pos h3]
    exact ⟨fun h => (by cases h), fun h => absurd h.2.2.1 h3⟩
  · rw [if_neg h1, if_neg h2, if_neg h3]
    push Not at h1 h2
    rw [not_not] at h3
    have hb : ∀ (p q s t : Prop), p → q → s → ((p ∧ q ∧ s ∧ t) ↔ t) := by tauto
    rw [hb _ _ _ _ h1 h2 h3]
    dsimp only
    cases e3 : compDidRC F m hi level 3 (DR.normalize w0) x y post <;>
    cases e2 : compDidRC F m hi level 2 (DR.normalize w0) x y post <;>
    cases e1 : compDidRC F m hi level 1 (DR.normalize w0) x y post <;>
    simp [Bind.bind, Except.bind, Pure.pure, Except.pure, eq_comm]

/-- **C148 (repeated cross-sections), with the exact distance.** The derivative of the `ddd_rc` estimate with respect to the
weight of observation `i`, all fits being redone, is the reported influence value plus, per comparison, the gap `gapRC`
(zero unless the method is `dr`) with the signs and the factors of the combination. -/
theorem C148_rc_gap (F : FitsRC sg κ ℝ) (m : Est) (hi level : ℝ) (y : ι → ℝ) (post : ι → Bool) (x : ι → κ → ℝ) (w0 : ι → ℝ)
    (i : ι) (hF : ScaleFreeRC F) (S : SmoothRC F m hi level (DR.normalize w0) x y post i) (r : ℝ × (ι → ℝ))
    (h : dddRC F m hi level y post x w0 = .ok r) :
    (∀ᶠ t in 𝓝 0, ∃ r', dddRC F m hi level y post x (upw w0 i t) = .ok r') ∧
    HasDerivAt (fun t => attOf (dddRC F m hi level y post x (upw w0 i t)))
      (r.2 i + (ratio sg 3 * scatter sg 3 (gapRC F m hi level 3 (DR.normalize w0) x y post) i +
        ratio sg 2 * scatter sg 2 (gapRC F m hi level 2 (DR.normalize w0) x y post) i -
        ratio sg 1 * scatter sg 1 (gapRC F m hi level 1 (DR.normalize w0) x y post) i)) 0 := by
  obtain ⟨hw0, hsg, h4, r3, r2, r1, h3, h2, h1, rfl⟩ := (dddRC_iff ..).1 h
  set w := DR.normalize w0 with hwn
  have : Nonempty ι := ⟨i⟩
  have hmn : 0 ≤ mean w0 := div_nonneg (Finset.sum_nonneg fun k _ => hw0 k) (Nat.cast_nonneg _)
  have hw : ∀ k, 0 ≤ w k := fun k => div_nonneg (hw0 k) hmn
  obtain ⟨d3, e3⟩ := compAttRC_deriv F m hi level (by simp) w hw x y post i S r3 h3
  obtain ⟨d2, e2⟩ := compAttRC_deriv F m hi level (by simp) w hw x y post i S r2 h2
  obtain ⟨d1, e1⟩ := compAttRC_deriv F m hi level (by simp) w hw x y post i S r1 h1
  have hpos : 0 < mean w0 := by
    have hT := ((compDidRC_iff ..).1 h3).1.1
    rcases hmn.eq_or_lt with h0 | h0
    · exfalso
      apply hT
      have : w = fun _ => 0 := by
        funext k; rw [hwn]; unfold DR.normalize; rw [← h0, div_zero]
      rw [this]; unfold wTreatRC onSub mean; simp
    · exact h0
  have hn : ∀ᶠ t : ℝ in 𝓝 0, 0 < 1 + (Fintype.card ι : ℝ) * t := by
    have hcont : ContinuousAt (fun t : ℝ => 1 + (Fintype.card ι : ℝ) * t) 0 := by fun_prop
    exact hcont.eventually_const_lt (by simp)
  have hm : ∀ᶠ t in 𝓝 0, 0 < mean (upw w0 i t) := by
    have := DR.hasDerivAt_wsum w0 i (f := fun _ _ => 1) (fun j => hasDerivAt_const 0 (1:ℝ))
    have hlt : (0:ℝ) < mean (fun j => upw w0 i 0 j * 1) := by rw [DR.upw_zero]; simpa using hpos
    have hev := this.continuousAt.eventually_const_lt hlt
    filter_upwards [hev] with t ht
    simpa using ht
  have key : ∀ᶠ t in 𝓝 0, ∃ g, dddRC F m hi level y post x (upw w0 i t) = .ok
      (attSubRC F m hi level 3 x y post (onSub sg 3 (upw w i t)) + attSubRC F m hi level 2 x y post (onSub sg 2 (upw w i t))
        - attSubRC F m hi level 1 x y post (onSub sg 1 (upw w i t)), g) := by
    filter_upwards [e3, e2, e1, hn, hm] with t a3 a2 a1 an am
    have hs : 0 < mean w0 / mean (upw w0 i t) := div_pos hpos am
    have hnorm : DR.normalize (upw w0 i t) = fun k => mean w0 / mean (upw w0 i t) * upw w i t k := by
      funext k
      rw [hwn]
      unfold DR.normalize
      show upw w0 i t k / mean (upw w0 i t) = mean w0 / mean (upw w0 i t) * (w0 k / mean w0 * _)
      unfold upw
      field_simp
    have hcomp : ∀ c, RunsS F m hi level c x post (onSub sg c (upw w i t)) →
        compDidRC F m hi level c (DR.normalize (upw w0 i t)) x y post =
          .ok (attSubRC F m hi level c x y post (onSub sg c (upw w i t)),
            scatter sg c (compIFRC F m hi level c (DR.normalize (upw w0 i t)) x y post)) := by
      intro c b
      have eS : onSub sg c (DR.normalize (upw w0 i t)) = fun k => mean w0 / mean (upw w0 i t) * onSub sg c (upw w i t) k := by
        rw [hnorm]; rfl
      rw [compDidRC_iff]
      refine ⟨?_, ?_⟩
      · rw [eS]; exact runsS_smul F hF m hi level c x post hs _ b
      · rw [compAttRC_sub, eS, attSubRC_smul F hF m hi level c x y post hs]
    refine ⟨fun k => ratio sg 3 * scatter sg 3 (compIFRC F m hi level 3 (DR.normalize (upw w0 i t)) x y post) k +
      ratio sg 2 * scatter sg 2 (compIFRC F m hi level 2 (DR.normalize (upw w0 i t)) x y post) k -
      ratio sg 1 * scatter sg 1 (compIFRC F m hi level 1 (DR.normalize (upw w0 i t)) x y post) k, ?_⟩
    rw [dddRC_iff]
    refine ⟨fun k => ?_, hsg, h4, _, _, _, hcomp 3 a3, hcomp 2 a2, hcomp 1 a1, rfl⟩
    unfold upw
    refine mul_nonneg (hw0 k) ?_
    split_ifs <;> simp [an.le]
  constructor
  · exact key.mono fun t ⟨g, hg⟩ => ⟨_, hg⟩
  · refine (((d3.fun_add d2).fun_sub d1).congr_of_eventuallyEq ?_).congr_deriv ?_
    · filter_upwards [key] with t ⟨g, hg⟩
      rw [hg]
      rfl
    · unfold combine3
      ring

/-- **C148 (repeated cross-sections, `reg` and `ipw`).** The influence value `ddd_rc` reports for observation `i` is the
derivative of its estimate with respect to the weight of `i`, all fits being redone. -/
theorem C148_rc (F : FitsRC sg κ ℝ) (m : Est) (hm : m ≠ .dr) (hi level : ℝ) (y : ι → ℝ) (post : ι → Bool) (x : ι → κ → ℝ)
    (w0 : ι → ℝ) (i : ι) (hF : ScaleFreeRC F) (S : SmoothRC F m hi level (DR.normalize w0) x y post i) (r : ℝ × (ι → ℝ))
    (h : dddRC F m hi level y post x w0 = .ok r) :
    (∀ᶠ t in 𝓝 0, ∃ r', dddRC F m hi level y post x (upw w0 i t) = .ok r') ∧
    HasDerivAt (fun t => attOf (dddRC F m hi level y post x (upw w0 i t))) (r.2 i) 0 := by
  obtain ⟨a, b⟩ := C148_rc_gap F m hi level y post x w0 i hF S r h
  refine ⟨a, b.congr_deriv ?_⟩
  have hz : ∀ c, scatter sg c (gapRC F m hi level c (DR.normalize w0) x y post) i = 0 := by
    intro c
    unfold scatter gapRC
    split_ifs <;> rfl
  rw [hz, hz, hz]
  ring

end Verif.Triple
