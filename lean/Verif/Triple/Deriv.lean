import Verif.Triple.Influence
import Verif.DR.Jackknife

set_option linter.unusedSectionVars false
set_option linter.unusedSimpArgs false

/-!
# Influence values of the triple difference are derivatives of its estimate (C148), panel data
-/

namespace Verif.Triple

open Verif.DR (mean ind fitted dot notB NormalEq ScoreEq upw psOf RefitOLS RefitLogit IsGramInv wmean)
open Filter Topology

variable {ι κ : Type*} [Fintype ι] [Fintype κ] [DecidableEq ι] [DecidableEq κ] {sg : ι → ℕ}

/-! ## Specification -/

/-- The point estimate of a run; `0` when the run raises. -/
def attOf : Except DErr (ℝ × (ι → ℝ)) → ℝ
  | .ok r => r.1
  | .error _ => 0

/-- Numerical fits do not depend on the scale of the weights. -/
structure ScaleFree (F : Fits sg κ ℝ) : Prop where
  ols : ∀ c s u sel x y, 0 < s → F.ols c (fun i => s * u i) sel x y = F.ols c u sel x y
  logit : ∀ c s u d x, 0 < s → F.logit c (fun i => s * u i) d x = F.logit c u d x

/-- The fits are exact and smooth at the weights `w` in the direction of unit `i`: in each comparison with `i` in it the
regression solves the normal equations and the scores are logit maximum-likelihood scores for nearby weights, the matrices
in the influence function are the inverses they stand for, and no score sits at the cap or at the trimming level. -/
structure Smooth (F : Fits sg κ ℝ) (m : Est) (hi level : ℝ) (w : ι → ℝ) (x : ι → κ → ℝ) (dy : ι → ℝ) (i : ι) : Prop where
  ols : m ≠ .ipw → ∀ c ∈ [1, 2, 3], ∀ h : sg i = 4 ∨ sg i = c,
    RefitOLS (onSub sg c w) (⟨i, h⟩ : Sub sg c) (paComp sg c) (onSub sg c x) (onSub sg c dy)
      (fun s => F.ols c (upw (onSub sg c w) ⟨i, h⟩ s) (paComp sg c) (onSub sg c x) (onSub sg c dy)) ∧
    IsGramInv (fun j : Sub sg c => w j.1 * ind (paComp sg c) j) (onSub sg c x) (F.inv (compGram sg c w x))
  logit : m ≠ .reg → ∀ c ∈ [1, 2, 3], ∀ h : sg i = 4 ∨ sg i = c, ∃ γ : ℝ → κ → ℝ,
    RefitLogit (onSub sg c w) (⟨i, h⟩ : Sub sg c) (pa4 sg c) (onSub sg c x) γ ∧
    (∀ᶠ s in 𝓝 0, F.logit c (upw (onSub sg c w) ⟨i, h⟩ s) (pa4 sg c) (onSub sg c x) = psOf (onSub sg c x) (γ s)) ∧
    IsGramInv (fun j => psOf (onSub sg c x) (γ 0) j * (1 - psOf (onSub sg c x) (γ 0) j) * onSub sg c w j) (onSub sg c x)
      (F.hess c (psOf (onSub sg c x) (γ 0)))
  interior : m ≠ .reg → ∀ c ∈ [1, 2, 3], ∀ j : Sub sg c,
    F.logit c (onSub sg c w) (pa4 sg c) (onSub sg c x) j < hi ∧ F.logit c (onSub sg c w) (pa4 sg c) (onSub sg c x) j ≠ level

/-! ## Proof -/

lemma onSub_upw_mem {c : ℕ} (w : ι → ℝ) (i : ι) (h : sg i = 4 ∨ sg i = c) (t : ℝ) :
    onSub sg c (upw w i t) = upw (onSub sg c w) ⟨i, h⟩
      ((Fintype.card ι : ℝ) / (Fintype.card (Sub sg c) : ℝ) * t) := by
  have : Nonempty (Sub sg c) := ⟨⟨i, h⟩⟩
  have hc : (Fintype.card (Sub sg c) : ℝ) ≠ 0 := by exact_mod_cast Fintype.card_ne_zero
  funext j
  unfold onSub upw
  by_cases hj : j.1 = i
  · have : j = ⟨i, h⟩ := Subtype.ext hj
    rw [if_pos hj, if_pos this]
    field_simp
  · have : j ≠ ⟨i, h⟩ := fun e => hj (by rw [e])
    rw [if_neg hj, if_neg this]

lemma onSub_upw_notMem {c : ℕ} (w : ι → ℝ) (i : ι) (h : ¬ (sg i = 4 ∨ sg i = c)) (t : ℝ) :
    onSub sg c (upw w i t) = onSub sg c w := by
  funext j
  unfold onSub upw
  have hj : j.1 ≠ i := fun e => h (e ▸ j.2)
  rw [if_neg hj]; ring

/-- One comparison as a function of the weights of its units only. -/
noncomputable def attSub (F : Fits sg κ ℝ) (m : Est) (hi level : ℝ) (c : ℕ) (x : ι → κ → ℝ) (dy : ι → ℝ)
    (u : Sub sg c → ℝ) : ℝ :=
  match m with
  | .reg => wmean (fun i => u i * ind (pa4 sg c) i)
        (fun i => onSub sg c dy i - fitted (onSub sg c x) (F.ols c u (paComp sg c) (onSub sg c x) (onSub sg c dy)) i) -
      wmean (fun i => u i * ind (paComp sg c) i)
        (fun i => onSub sg c dy i - fitted (onSub sg c x) (F.ols c u (paComp sg c) (onSub sg c x) (onSub sg c dy)) i)
  | .ipw => DR.ipwPanel (pa4 sg c) (DR.trim level (pa4 sg c) (fun i => min (F.logit c u (pa4 sg c) (onSub sg c x) i) hi))
        (fun i => min (F.logit c u (pa4 sg c) (onSub sg c x) i) hi) (onSub sg c dy) u
  | .dr => DR.drPanel (pa4 sg c) (DR.trim level (pa4 sg c) (fun i => min (F.logit c u (pa4 sg c) (onSub sg c x) i) hi))
        (fun i => min (F.logit c u (pa4 sg c) (onSub sg c x) i) hi)
        (fitted (onSub sg c x) (F.ols c u (notB (pa4 sg c)) (onSub sg c x) (onSub sg c dy))) (onSub sg c dy) u

lemma compAtt_sub (F : Fits sg κ ℝ) (m : Est) (hi level : ℝ) {c : ℕ} (hc : c ≠ 4) (w : ι → ℝ) (x : ι → κ → ℝ)
    (dy : ι → ℝ) : compAtt m sg c (nuis F m hi level c w x dy) w dy = attSub F m hi level c x dy (onSub sg c w) := by
  cases m with
  | dr =>
    rw [compAtt_dr (by decide) hc, nuis_keep _ (by decide), nuis_ps _ (by decide), nuis_out _ (by decide) _ _ hc]
    rfl
  | ipw =>
    have ho : (nuis F .ipw hi level c w x dy).out = fun _ => 0 := by unfold nuis; simp
    rw [compAtt_dr (by decide) hc, nuis_keep _ (by decide), nuis_ps _ (by decide), ho, drPanel_zero]
    rfl
  | reg =>
    have hkp : (nuis F .reg hi level c w x dy).keep = fun _ => true := by unfold nuis; simp
    rw [compAtt_reg _ hkp, nuis_out _ (by decide) _ _ hc]
    unfold attSub prediction
    rw [← paComp_fun hc]
    simp only [mul_comm]

/-- Weights below which the comparison raises. -/
noncomputable def contSub (F : Fits sg κ ℝ) (m : Est) (hi level : ℝ) (c : ℕ) (x : ι → κ → ℝ) (u : Sub sg c → ℝ) : ℝ :=
  if m = .reg then mean (fun i => u i * ind (paComp sg c) i)
  else mean (DR.wCont (pa4 sg c) (DR.trim level (pa4 sg c) (fun i => min (F.logit c u (pa4 sg c) (onSub sg c x) i) hi))
        (fun i => min (F.logit c u (pa4 sg c) (onSub sg c x) i) hi) u)

lemma mean_wTreat_sub (F : Fits sg κ ℝ) (m : Est) (hi level : ℝ) (c : ℕ) (w : ι → ℝ) (x : ι → κ → ℝ) (dy : ι → ℝ) :
    mean (wTreat sg c (nuis F m hi level c w x dy) w) = mean (fun i : Sub sg c => onSub sg c w i * ind (pa4 sg c) i) := by
  congr 1
  funext i
  unfold wTreat
  by_cases h4 : pa4 sg c i = true
  · have : (nuis F m hi level c w x dy).keep i = true := by
      unfold nuis; by_cases hm : m = .reg <;> simp [hm, h4]
    simp [ind, this, h4, onSub]
  · simp [ind, h4]

lemma mean_wControl_sub (F : Fits sg κ ℝ) (m : Est) (hi level : ℝ) {c : ℕ} (hc : c ≠ 4) (w : ι → ℝ) (x : ι → κ → ℝ)
    (dy : ι → ℝ) :
    mean (wControl m sg c (nuis F m hi level c w x dy) w) = contSub F m hi level c x (onSub sg c w) := by
  unfold contSub
  by_cases hm : m = .reg
  · subst hm
    rw [if_pos rfl]
    congr 1
    funext i
    unfold wControl nuis
    simp [ind, onSub]
  · rw [if_neg hm, wControl_eq hm hc, nuis_keep _ hm, nuis_ps _ hm]
    rfl

/-- Along a smooth path no score reaches the cap and no unit crosses the trimming level. -/
lemma path_interior {σ : Type*} [Fintype σ] [DecidableEq σ] (d : σ → Bool) (x : σ → κ → ℝ) {γ : ℝ → κ → ℝ} (hi level : ℝ)
    (hd : ∀ k, DifferentiableAt ℝ (fun t => γ t k) 0) (h : ∀ j, psOf x (γ 0) j < hi ∧ psOf x (γ 0) j ≠ level) :
    ∀ᶠ s in 𝓝 0, (fun j => min (psOf x (γ s) j) hi) = psOf x (γ s) ∧
      DR.trim level d (psOf x (γ s)) = DR.trim level d (psOf x (γ 0)) := by
  have hc : ∀ j, ContinuousAt (fun s => psOf x (γ s) j) 0 := fun j =>
    (DR.hasDerivAt_psOf x (fun k => (hd k).hasDerivAt) j).continuousAt
  have h1 : ∀ᶠ s in 𝓝 0, ∀ j, psOf x (γ s) j < hi := by
    rw [eventually_all]
    exact fun j => (hc j).eventually_lt_const (h j).1
  have h2 : ∀ᶠ s in 𝓝 0, ∀ j, (psOf x (γ s) j < level ↔ psOf x (γ 0) j < level) := by
    rw [eventually_all]
    intro j
    rcases lt_or_gt_of_ne (h j).2 with hl | hl
    · filter_upwards [(hc j).eventually_lt_const hl] with s hs
      exact ⟨fun _ => hl, fun _ => hs⟩
    · filter_upwards [(hc j).eventually_const_lt hl] with s hs
      exact ⟨fun h => absurd h hs.not_gt, fun h => absurd h hl.not_gt⟩
  filter_upwards [h1, h2] with s a b
  refine ⟨funext fun j => min_eq_left (a j).le, ?_⟩
  funext j
  unfold DR.trim
  by_cases hj : d j = true
  · simp [hj]
  · simp [hj, b j]

/-- The derivative of one comparison, and the fact that it goes on running. -/
lemma attSub_deriv (F : Fits sg κ ℝ) (m : Est) (hi level : ℝ) {c : ℕ} (hc3 : c ∈ [1, 2, 3]) (w : ι → ℝ) (x : ι → κ → ℝ)
    (dy : ι → ℝ) (i : ι) (h : sg i = 4 ∨ sg i = c) (S : Smooth F m hi level w x dy i)
    (hT : mean (fun i : Sub sg c => onSub sg c w i * ind (pa4 sg c) i) ≠ 0)
    (hC : contSub F m hi level c x (onSub sg c w) ≠ 0) :
    HasDerivAt (fun s => attSub F m hi level c x dy (upw (onSub sg c w) ⟨i, h⟩ s))
      (compIF F.inv m sg c (nuis F m hi level c w x dy) w x dy ⟨i, h⟩) 0 ∧
    ∀ᶠ s in 𝓝 0, contSub F m hi level c x (upw (onSub sg c w) ⟨i, h⟩ s) ≠ 0 := by
  have hc : c ≠ 4 := by rintro rfl; simp at hc3
  set j : Sub sg c := ⟨i, h⟩ with hj
  by_cases hm : m = .reg
  · subst hm
    obtain ⟨hβ, hM⟩ := S.ols (by decide) c hc3 h
    have hs : ∀ k : Sub sg c, (ind (paComp sg c) k : ℝ) = if paComp sg c k then 1 else 0 := fun k => rfl
    have hb := hβ.deriv hs hM
    have hC' : mean (fun i : Sub sg c => onSub sg c w i * ind (paComp sg c) i) ≠ 0 := by
      unfold contSub at hC; rwa [if_pos rfl] at hC
    constructor
    · have h1 := DR.hasDerivAt_treatComp (onSub sg c w) (fun k => ind (pa4 sg c) k) (onSub sg c dy) j (onSub sg c x) hb hT
      have h2 := DR.hasDerivAt_treatComp (onSub sg c w) (fun k => ind (paComp sg c) k) (onSub sg c dy) j (onSub sg c x) hb hC'
      refine (h1.fun_sub h2).congr_deriv ?_
      have hkp : (nuis F .reg hi level c w x dy).keep = fun _ => true := by unfold nuis; simp
      have hTe : wTreat sg c (nuis F .reg hi level c w x dy) w = fun i => onSub sg c w i * ind (pa4 sg c) i := by
        funext i; unfold wTreat; rw [hkp]; simp [ind, onSub]
      have hCe : wControl .reg sg c (nuis F .reg hi level c w x dy) w = fun i => onSub sg c w i * ind (paComp sg c) i := by
        funext i; unfold wControl; rw [hkp]; simp [ind, onSub]
      unfold compIF
      simp only [hTe, hCe, nuis_out _ (show Est.reg ≠ .ipw by decide) _ _ hc, DR.upw_zero, if_true, reduceCtorEq, if_false]
      rw [← show fitted (onSub sg c x) (F.ols c (onSub sg c w) (paComp sg c) (onSub sg c x) (onSub sg c dy)) =
        prediction F c w x dy by unfold prediction; rw [paComp_fun hc]]
      unfold DR.alrOLS wmean
      simp only [onSub]
      ring
    · have hw := DR.hasDerivAt_wsum (onSub sg c w) j (f := fun k _ => ind (paComp sg c) k)
        (fun k => hasDerivAt_const 0 (ind (paComp sg c) k))
      have := hw.continuousAt.eventually_ne (by rw [DR.upw_zero]; exact hC')
      filter_upwards [this] with s hs
      unfold contSub; rw [if_pos rfl]; exact hs
  · obtain ⟨γ, hγ, hfit, hH⟩ := S.logit hm c hc3 h
    have h0 : F.logit c (onSub sg c w) (pa4 sg c) (onSub sg c x) = psOf (onSub sg c x) (γ 0) := by
      have := hfit.self_of_nhds; rwa [DR.upw_zero] at this
    have hint := S.interior hm c hc3
    rw [h0] at hint
    have hpath := path_interior (pa4 sg c) (onSub sg c x) hi level hγ.diff hint
    have hsc : score F hi c w x = psOf (onSub sg c x) (γ 0) := by
      unfold score; rw [h0]; exact hpath.self_of_nhds.1
    have hev : ∀ᶠ s in 𝓝 0, (fun k => min (F.logit c (upw (onSub sg c w) j s) (pa4 sg c) (onSub sg c x) k) hi) =
        psOf (onSub sg c x) (γ s) := by
      filter_upwards [hfit, hpath] with s a b
      rw [a]; exact b.1
    have hT' : mean (DR.wTreat (pa4 sg c) (DR.trim level (pa4 sg c) (psOf (onSub sg c x) (γ 0))) (onSub sg c w)) ≠ 0 := by
      have e : DR.wTreat (pa4 sg c) (DR.trim level (pa4 sg c) (psOf (onSub sg c x) (γ 0))) (onSub sg c w) =
          fun i => onSub sg c w i * ind (pa4 sg c) i := by
        funext k
        unfold DR.wTreat DR.trim
        by_cases h4 : pa4 sg c k = true <;> simp [ind, h4]
      rw [e]; exact hT
    have hC' : mean (DR.wCont (pa4 sg c) (DR.trim level (pa4 sg c) (psOf (onSub sg c x) (γ 0))) (psOf (onSub sg c x) (γ 0))
        (onSub sg c w)) ≠ 0 := by
      unfold contSub at hC
      rw [if_neg hm] at hC
      rw [← hsc]; exact hC
    constructor
    · cases m with
      | reg => exact absurd rfl hm
      | ipw =>
        have hd := DR.C72_ipw_panel (pa4 sg c) (DR.trim level (pa4 sg c) (psOf (onSub sg c x) (γ 0))) (onSub sg c dy)
          (onSub sg c w) (onSub sg c x) _ γ j hγ hH hT' hC'
        rw [compIF_ipw _ _ _ hc]
        unfold twoGroupIF
        rw [hsc]
        refine hd.congr_of_eventuallyEq ?_
        filter_upwards [hev, hpath] with s a b
        unfold attSub
        simp only [a, b.2]
      | dr =>
        obtain ⟨hβ, hM⟩ := S.ols (by decide) c hc3 h
        rw [paComp_fun hc] at hβ hM
        simp only [ind_notB] at hM
        have hd := DR.C72_dr_panel (pa4 sg c) (DR.trim level (pa4 sg c) (psOf (onSub sg c x) (γ 0))) (onSub sg c dy)
          (onSub sg c w) (onSub sg c x) _ _ _ γ j hβ hγ hM hH hT' hC'
        rw [compIF_dr _ _ _ hc]
        unfold twoGroupIF
        rw [hsc]
        simp only [DR.upw_zero] at hd
        refine hd.congr_of_eventuallyEq ?_
        filter_upwards [hev, hpath] with s a b
        unfold attSub
        simp only [a, b.2]
        rfl
    · rw [DR.wCont_upw] at hC'
      have hg : ∀ k, HasDerivAt (fun t => γ t k) (_root_.deriv (fun t => γ t k) 0) 0 := fun k => (hγ.diff k).hasDerivAt
      have hw := DR.hasDerivAt_wsum (onSub sg c w) j (f := fun k s => ind (DR.trim level (pa4 sg c) (psOf (onSub sg c x) (γ 0))) k *
          (1 - ind (pa4 sg c) k) * (psOf (onSub sg c x) (γ s) k / (1 - psOf (onSub sg c x) (γ s) k)))
        (fun k => (DR.hasDerivAt_odds (onSub sg c x) hg k).const_mul _)
      have := hw.continuousAt.eventually_ne (by rw [DR.upw_zero]; exact hC')
      filter_upwards [this, hev, hpath] with s hs a b
      unfold contSub
      rw [if_neg hm]
      simp only [a, b.2]
      rw [DR.wCont_upw]
      exact hs

/-- The same as a function of the global weights; the units outside the comparison have no effect. -/
lemma compAtt_deriv (F : Fits sg κ ℝ) (m : Est) (hi level : ℝ) {c : ℕ} (hc3 : c ∈ [1, 2, 3]) (w : ι → ℝ) (x : ι → κ → ℝ)
    (dy : ι → ℝ) (i : ι) (S : Smooth F m hi level w x dy i) (r : ℝ × (ι → ℝ))
    (hr : compDid F.inv m sg c (nuis F m hi level c w x dy) w x dy = .ok r) :
    HasDerivAt (fun t => attSub F m hi level c x dy (onSub sg c (upw w i t))) (ratio sg c * r.2 i) 0 ∧
    ∀ᶠ t in 𝓝 0, mean (fun k : Sub sg c => onSub sg c (upw w i t) k * ind (pa4 sg c) k) ≠ 0 ∧
      contSub F m hi level c x (onSub sg c (upw w i t)) ≠ 0 := by
  have hc : c ≠ 4 := by rintro rfl; simp at hc3
  obtain ⟨hT, hC, rfl⟩ := compDid_ok hr
  rw [mean_wTreat_sub] at hT
  rw [mean_wControl_sub _ _ _ _ hc] at hC
  by_cases h : sg i = 4 ∨ sg i = c
  · obtain ⟨hd, he⟩ := attSub_deriv F m hi level hc3 w x dy i h S hT hC
    have hn : Nonempty (Sub sg c) := ⟨⟨i, h⟩⟩
    have hcard : 0 < Fintype.card (Sub sg c) := Fintype.card_pos
    set q : ℝ := (Fintype.card ι : ℝ) / (Fintype.card (Sub sg c) : ℝ) with hq
    have hlin : HasDerivAt (fun t : ℝ => q * t) q 0 := by simpa using (hasDerivAt_id (0:ℝ)).const_mul q
    have ht : Tendsto (fun t : ℝ => q * t) (𝓝 0) (𝓝 0) := by
      have := hlin.continuousAt.tendsto; simpa using this
    constructor
    · have e : (fun t => attSub F m hi level c x dy (onSub sg c (upw w i t))) =
          (fun s => attSub F m hi level c x dy (upw (onSub sg c w) ⟨i, h⟩ s)) ∘ fun t => q * t := by
        funext t; simp only [Function.comp]; rw [onSub_upw_mem w i h]
      rw [e]
      have hd' : HasDerivAt (fun s => attSub F m hi level c x dy (upw (onSub sg c w) ⟨i, h⟩ s))
          (compIF F.inv m sg c (nuis F m hi level c w x dy) w x dy ⟨i, h⟩) (q * 0) := by rw [mul_zero]; exact hd
      refine (hd'.comp 0 hlin).congr_deriv ?_
      unfold ratio scatter
      simp only
      rw [if_pos hcard, dif_pos h, mul_comm]
    · have hw := DR.hasDerivAt_wsum (onSub sg c w) (⟨i, h⟩ : Sub sg c) (f := fun k _ => ind (pa4 sg c) k)
        (fun k => hasDerivAt_const 0 (ind (pa4 sg c) k))
      have := hw.continuousAt.eventually_ne (by rw [DR.upw_zero]; exact hT)
      filter_upwards [ht.eventually this, ht.eventually he] with t a b
      rw [onSub_upw_mem w i h]
      exact ⟨a, b⟩
  · simp only [onSub_upw_notMem w i h]
    constructor
    · refine (hasDerivAt_const _ _).congr_deriv ?_
      unfold scatter
      rw [dif_neg h, mul_zero]
    · exact Eventually.of_forall fun t => ⟨hT, hC⟩

lemma onSub_smul (c : ℕ) (s : ℝ) (u : ι → ℝ) : onSub sg c (fun i => s * u i) = fun k => s * onSub sg c u k := rfl

lemma mean_smul {σ : Type*} [Fintype σ] (s : ℝ) (f : σ → ℝ) : mean (fun k => s * f k) = s * mean f := by
  unfold mean; rw [← Finset.mul_sum, mul_div_assoc]

lemma wmean_smul {σ : Type*} [Fintype σ] {s : ℝ} (hs : s ≠ 0) (u v : σ → ℝ) : wmean (fun k => s * u k) v = wmean u v := by
  unfold wmean
  have e : (fun k => s * u k * v k) = fun k => s * (u k * v k) := by funext k; ring
  rw [e, mean_smul, mean_smul, mul_div_mul_left _ _ hs]

lemma drPanel_smul {σ : Type*} [Fintype σ] {s : ℝ} (hs : s ≠ 0) (d tr : σ → Bool) (ps out dy u : σ → ℝ) :
    DR.drPanel d tr ps out dy (fun k => s * u k) = DR.drPanel d tr ps out dy u := by
  unfold DR.drPanel
  have e1 : DR.wTreat d tr (fun k => s * u k) = fun k => s * DR.wTreat d tr u k := by
    funext k; unfold DR.wTreat; ring
  have e2 : DR.wCont d tr ps (fun k => s * u k) = fun k => s * DR.wCont d tr ps u k := by
    funext k; unfold DR.wCont; ring
  rw [e1, e2, wmean_smul hs, wmean_smul hs]

lemma attSub_smul (F : Fits sg κ ℝ) (hF : ScaleFree F) (m : Est) (hi level : ℝ) (c : ℕ) (x : ι → κ → ℝ) (dy : ι → ℝ)
    {s : ℝ} (hs : 0 < s) (u : Sub sg c → ℝ) :
    attSub F m hi level c x dy (fun k => s * u k) = attSub F m hi level c x dy u := by
  cases m with
  | dr => unfold attSub; simp only [hF.ols _ _ _ _ _ _ hs, hF.logit _ _ _ _ _ hs, drPanel_smul hs.ne']
  | ipw => unfold attSub; simp only [hF.logit _ _ _ _ _ hs, ← drPanel_zero, drPanel_smul hs.ne']
  | reg =>
    unfold attSub
    simp only [hF.ols _ _ _ _ _ _ hs]
    have e : ∀ a : Sub sg c → ℝ, (fun i => s * u i * a i) = fun i => s * (u i * a i) := by intro a; funext k; ring
    simp only [e, wmean_smul hs.ne']

lemma contSub_smul (F : Fits sg κ ℝ) (hF : ScaleFree F) (m : Est) (hi level : ℝ) (c : ℕ) (x : ι → κ → ℝ)
    {s : ℝ} (hs : 0 < s) (u : Sub sg c → ℝ) :
    contSub F m hi level c x (fun k => s * u k) = s * contSub F m hi level c x u := by
  unfold contSub
  split_ifs
  · rw [← mean_smul]; congr 1; funext k; ring
  · simp only [hF.logit _ _ _ _ _ hs]
    rw [← mean_smul]; congr 1; funext k; unfold DR.wCont; ring

/-- **C148 (panel).** The influence value `ddd_panel` reports for unit `i` is the derivative of its estimate with respect to
the weight of `i`, all fits being redone, for each of the three methods. -/
theorem C148_panel (F : Fits sg κ ℝ) (m : Est) (hi level : ℝ) (y1 y0 : ι → ℝ) (x : ι → κ → ℝ) (w0 : ι → ℝ) (i : ι)
    (hF : ScaleFree F) (S : Smooth F m hi level (DR.normalize w0) x (fun i => y1 i - y0 i) i) (r : ℝ × (ι → ℝ))
    (h : dddPanel F m hi level y1 y0 x w0 = .ok r) :
    (∀ᶠ t in 𝓝 0, ∃ r', dddPanel F m hi level y1 y0 x (upw w0 i t) = .ok r') ∧
    HasDerivAt (fun t => attOf (dddPanel F m hi level y1 y0 x (upw w0 i t))) (r.2 i) 0 := by
  obtain ⟨hw, hsg, h4, h⟩ := dddPanel_ok h
  set dy := fun i => y1 i - y0 i with hdy
  obtain ⟨r3, r2, r1, h3, h2, h1, rfl⟩ := allDid_ok h
  set w := DR.normalize w0 with hwn
  obtain ⟨d3, e3⟩ := compAtt_deriv F m hi level (by simp) w x dy i S r3 h3
  obtain ⟨d2, e2⟩ := compAtt_deriv F m hi level (by simp) w x dy i S r2 h2
  obtain ⟨d1, e1⟩ := compAtt_deriv F m hi level (by simp) w x dy i S r1 h1
  have hpos : 0 < mean w0 := by
    have hT := (compDid_ok h3).1
    have : Nonempty ι := ⟨i⟩
    rcases (show 0 ≤ mean w0 from div_nonneg (Finset.sum_nonneg fun k _ => hw k) (Nat.cast_nonneg _)).eq_or_lt with h0 | h0
    · exfalso
      apply hT
      have : w = fun _ => 0 := by
        funext k; rw [hwn]; unfold DR.normalize; rw [← h0, div_zero]
      rw [this]; unfold wTreat mean; simp
    · exact h0
  have : Nonempty ι := ⟨i⟩
  have hn : ∀ᶠ t : ℝ in 𝓝 0, 0 < 1 + (Fintype.card ι : ℝ) * t := by
    have hcont : ContinuousAt (fun t : ℝ => 1 + (Fintype.card ι : ℝ) * t) 0 := by fun_prop
    exact hcont.eventually_const_lt (by simp)
  have hm : ∀ᶠ t in 𝓝 0, 0 < mean (upw w0 i t) := by
    have := DR.hasDerivAt_wsum w0 i (f := fun _ _ => 1) (fun j => hasDerivAt_const 0 (1:ℝ))
    have hlt : (0:ℝ) < mean (fun j => upw w0 i 0 j * 1) := by rw [DR.upw_zero]; simpa using hpos
    have hev := this.continuousAt.eventually_const_lt hlt
    filter_upwards [hev] with t ht
    simpa using ht
  have key : ∀ᶠ t in 𝓝 0, ∃ g, dddPanel F m hi level y1 y0 x (upw w0 i t) = .ok
      (attSub F m hi level 3 x dy (onSub sg 3 (upw w i t)) + attSub F m hi level 2 x dy (onSub sg 2 (upw w i t))
        - attSub F m hi level 1 x dy (onSub sg 1 (upw w i t)), g) := by
    filter_upwards [e3, e2, e1, hn, hm] with t a3 a2 a1 an am
    have hs : 0 < mean w0 / mean (upw w0 i t) := div_pos hpos am
    have hnorm : DR.normalize (upw w0 i t) = fun k => mean w0 / mean (upw w0 i t) * upw w i t k := by
      funext k
      rw [hwn]
      unfold DR.normalize
      show upw w0 i t k / mean (upw w0 i t) = mean w0 / mean (upw w0 i t) * (w0 k / mean w0 * _)
      unfold upw
      field_simp
    have hcomp : ∀ c ∈ [1, 2, 3], mean (fun k : Sub sg c => onSub sg c (upw w i t) k * ind (pa4 sg c) k) ≠ 0 ∧
        contSub F m hi level c x (onSub sg c (upw w i t)) ≠ 0 →
        ∃ g, compDid F.inv m sg c (nuis F m hi level c (DR.normalize (upw w0 i t)) x dy) (DR.normalize (upw w0 i t)) x dy =
          .ok (attSub F m hi level c x dy (onSub sg c (upw w i t)), g) := by
      intro c hc3 ⟨b1, b2⟩
      have hc : c ≠ 4 := by rintro rfl; simp at hc3
      have f1 : mean (wTreat sg c (nuis F m hi level c (DR.normalize (upw w0 i t)) x dy) (DR.normalize (upw w0 i t))) ≠ 0 := by
        rw [mean_wTreat_sub, hnorm, onSub_smul]
        have : (fun k : Sub sg c => mean w0 / mean (upw w0 i t) * onSub sg c (upw w i t) k * ind (pa4 sg c) k) =
            fun k => mean w0 / mean (upw w0 i t) * (onSub sg c (upw w i t) k * ind (pa4 sg c) k) := by funext k; ring
        rw [this, mean_smul]
        exact mul_ne_zero hs.ne' b1
      have f2 : mean (wControl m sg c (nuis F m hi level c (DR.normalize (upw w0 i t)) x dy) (DR.normalize (upw w0 i t))) ≠ 0 := by
        rw [mean_wControl_sub _ _ _ _ hc, hnorm, onSub_smul, contSub_smul F hF _ _ _ _ _ hs]
        exact mul_ne_zero hs.ne' b2
      refine ⟨scatter sg c (compIF F.inv m sg c (nuis F m hi level c (DR.normalize (upw w0 i t)) x dy)
        (DR.normalize (upw w0 i t)) x dy), ?_⟩
      unfold compDid
      rw [if_neg f1, if_neg f2, compAtt_sub _ _ _ _ hc]
      rw [show onSub sg c (DR.normalize (upw w0 i t)) = fun k => mean w0 / mean (upw w0 i t) * onSub sg c (upw w i t) k by
        rw [hnorm]; rfl, attSub_smul F hF _ _ _ _ _ _ hs]
    obtain ⟨g3, q3⟩ := hcomp 3 (by simp) a3
    obtain ⟨g2, q2⟩ := hcomp 2 (by simp) a2
    obtain ⟨g1, q1⟩ := hcomp 1 (by simp) a1
    refine ⟨fun k => ratio sg 3 * g3 k + ratio sg 2 * g2 k - ratio sg 1 * g1 k, ?_⟩
    unfold dddPanel
    rw [if_neg, if_neg, if_neg]
    · unfold allDid
      rw [q3, q2, q1]
      rfl
    · exact not_not.2 h4
    · push Not; exact hsg
    · push Not
      intro k
      unfold upw
      refine mul_nonneg (hw k) ?_
      split_ifs <;> simp [an.le]
  constructor
  · exact key.mono fun t ⟨g, hg⟩ => ⟨_, hg⟩
  · refine (((d3.fun_add d2).fun_sub d1).congr_of_eventuallyEq ?_)
    filter_upwards [key] with t ⟨g, hg⟩
    rw [hg]
    rfl

end Verif.Triple
