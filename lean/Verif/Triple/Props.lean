import Verif.Triple.Model
import Verif.Triple.Spec
import Verif.DR.Props
import Verif.DR.MeanZero

/-!
# Triple differences, panel: C49 and C50
-/

set_option linter.unusedSectionVars false
set_option linter.unusedSimpArgs false

namespace Verif.Triple

open Verif.DR (mean ind fitted dot notB NormalEq ScoreEq BothArms treatedShare did2x2 wavg)

variable {ι κ K : Type*} [Fintype ι] [Fintype κ] [Field K] [LinearOrder K] [IsStrictOrderedRing K] {sg : ι → ℕ}

lemma paComp_eq {c : ℕ} (hc : c ≠ 4) (i : Sub sg c) : paComp sg c i = notB (pa4 sg c) i := by
  unfold paComp notB pa4
  rcases i.2 with h | h
  · have h' : ¬ sg i.1 = c := fun e => hc (e.symm.trans h)
    simp [h]; omega
  · have h' : ¬ sg i.1 = 4 := fun e => hc (h.symm.trans e)
    simp [h, hc]

lemma paComp_fun {c : ℕ} (hc : c ≠ 4) : paComp sg c = notB (pa4 sg c) := funext (paComp_eq hc)

lemma ind_notB {σ : Type*} (d : σ → Bool) (i : σ) : (ind (notB d) i : K) = 1 - ind d i := by
  unfold ind notB; cases d i <;> simp

/-- Sums over one of the two subgroups of a comparison are sums over that subgroup. -/
lemma sum_sub (c k : ℕ) (hk : k = 4 ∨ k = c) (f : ι → K) :
    ∑ i : Sub sg c with sg i.1 = k, f i.1 = ∑ i with sg i = k, f i := by
  refine (Finset.sum_map (Finset.univ.filter fun i : Sub sg c => sg i.1 = k) (Function.Embedding.subtype _) f).symm.trans ?_
  apply Finset.sum_congr _ fun _ _ => rfl
  ext i
  simp only [Finset.mem_map, Finset.mem_filter, Finset.mem_univ, true_and, Function.Embedding.subtype_apply,
    Subtype.exists, exists_prop]
  constructor
  · rintro ⟨j, _, h, rfl⟩; exact h
  · intro h; exact ⟨i, by rcases hk with rfl | rfl <;> simp [h], h, rfl⟩

lemma wavg_sub (c k : ℕ) (hk : k = 4 ∨ k = c) (w y : ι → K) :
    wavg (onSub sg c w) (fun i => sg i.1 = k) (onSub sg c y) = wavg w (fun i => sg i = k) y := by
  unfold wavg onSub
  rw [sum_sub c k hk (fun i => w i * y i), sum_sub c k hk w]

lemma pa4_false {c : ℕ} (hc : c ≠ 4) (i : Sub sg c) : pa4 sg c i = false ↔ sg i.1 = c := by
  have := paComp_eq hc i
  unfold paComp notB at this
  cases h : pa4 sg c i <;> simp [h] at this ⊢ <;> exact this

lemma did2x2_sub {c : ℕ} (hc : c ≠ 4) (w y1 y0 : ι → K) :
    did2x2 (onSub sg c w) (pa4 sg c) (onSub sg c y1) (onSub sg c y0) =
      change w sg y1 y0 4 - change w sg y1 y0 c := by
  unfold did2x2 change
  rw [DR.wavg_congr (T := fun i : Sub sg c => sg i.1 = 4) _ _ (by intro i; simp [pa4]),
    DR.wavg_congr (S := fun i => pa4 sg c i = false) (T := fun i : Sub sg c => sg i.1 = c) _ _ (pa4_false hc)]
  exact congrArg₂ _ (wavg_sub c 4 (.inl rfl) w fun i => y1 i - y0 i)
    (wavg_sub c c (.inr rfl) w fun i => y1 i - y0 i)

/-- Positive weight in subgroup 4 and in the comparison subgroup. -/
lemma bothArms {c : ℕ} (hc : c ≠ 4) {w : ι → K} (hw : ∀ i, 0 ≤ w i)
    (h4 : 0 < ∑ i with sg i = 4, w i) (hk : 0 < ∑ i with sg i = c, w i) :
    BothArms (onSub sg c w) (pa4 sg c) := by
  refine ⟨fun i => hw i.1, ?_, ?_⟩
  · have := sum_sub (sg := sg) c 4 (.inl rfl) w
    simpa [pa4, onSub] using this ▸ h4
  · have := sum_sub (sg := sg) c c (.inr rfl) w
    rw [← this] at hk
    have e : (Finset.univ.filter fun i : Sub sg c => pa4 sg c i = false) =
        Finset.univ.filter fun i : Sub sg c => sg i.1 = c := by ext i; simp [pa4_false hc]
    rw [e]; exact hk

/-- With scores below the trimming level on the comparison units, one comparison of the `dr` or `ipw` method is the
two-period estimator of `drdid_panel` / `std_ipw_did_panel` on the two subgroups. -/
lemma compAtt_dr {m : Est} (hm : m ≠ .reg) {c : ℕ} (hc : c ≠ 4) (n : Nuis (Sub sg c) κ K) (w dy : ι → K) :
    compAtt m sg c n w dy =
      DR.drPanel (pa4 sg c) n.keep n.ps n.out (onSub sg c dy) (onSub sg c w) := by
  unfold compAtt DR.drPanel DR.wmean
  have hC : wControl m sg c n w = DR.wCont (pa4 sg c) n.keep n.ps (onSub sg c w) := by
    funext i
    unfold wControl DR.wCont
    rw [if_neg hm, paComp_fun hc, ind_notB]; rfl
  have hT : wTreat sg c n w = DR.wTreat (pa4 sg c) n.keep (onSub sg c w) := rfl
  rw [hC, hT]; rfl

lemma drPanel_zero {σ : Type*} [Fintype σ] (d tr : σ → Bool) (ps dy w : σ → K) :
    DR.drPanel d tr ps (fun _ => 0) dy w = DR.ipwPanel d tr ps dy w := by
  unfold DR.drPanel DR.ipwPanel
  simp only [sub_zero]
  rw [← DR.hmean_eq_wmean, ← DR.hmean_eq_wmean]; rfl

/-- The comparison of the `reg` method: difference of weighted mean residuals. -/
lemma compAtt_reg {c : ℕ} (n : Nuis (Sub sg c) κ K) (hk : n.keep = fun _ => true) (w dy : ι → K) :
    compAtt .reg sg c n w dy =
      DR.wmean (fun i => ind (pa4 sg c) i * onSub sg c w i) (fun i => onSub sg c dy i - n.out i) -
      DR.wmean (fun i => ind (paComp sg c) i * onSub sg c w i) (fun i => onSub sg c dy i - n.out i) := by
  unfold compAtt DR.wmean
  have hT : wTreat sg c n w = fun i => ind (pa4 sg c) i * onSub sg c w i := by
    funext i; unfold wTreat; rw [hk]; simp [ind, onSub]
  have hC : wControl .reg sg c n w = fun i => ind (paComp sg c) i * onSub sg c w i := by
    funext i; unfold wControl; rw [hk]; simp [ind, onSub]
  rw [hT, hC]; rfl

/-! ## The estimate is the combination of three two-group estimators -/

lemma allDid_ok {F : Fits sg κ K} {m : Est} {hi level : K} {w : ι → K} {x : ι → κ → K} {dy : ι → K} {r : K × (ι → K)}
    (h : allDid F m hi level w x dy = .ok r) :
    ∃ r3 r2 r1, compDid F.inv m sg 3 (nuis F m hi level 3 w x dy) w x dy = .ok r3 ∧
      compDid F.inv m sg 2 (nuis F m hi level 2 w x dy) w x dy = .ok r2 ∧
      compDid F.inv m sg 1 (nuis F m hi level 1 w x dy) w x dy = .ok r1 ∧ r = combine3 sg r3 r2 r1 := by
  unfold allDid at h
  cases h3 : compDid F.inv m sg 3 (nuis F m hi level 3 w x dy) w x dy with
  | error e => rw [h3] at h; simp [bind, Except.bind] at h
  | ok r3 =>
    cases h2 : compDid F.inv m sg 2 (nuis F m hi level 2 w x dy) w x dy with
    | error e => rw [h3, h2] at h; simp [bind, Except.bind] at h
    | ok r2 =>
      cases h1 : compDid F.inv m sg 1 (nuis F m hi level 1 w x dy) w x dy with
      | error e => rw [h3, h2, h1] at h; simp [bind, Except.bind] at h
      | ok r1 =>
        rw [h3, h2, h1] at h
        simp only [bind, Except.bind, pure, Except.pure, Except.ok.injEq] at h
        exact ⟨r3, r2, r1, rfl, rfl, rfl, h.symm⟩

lemma compDid_ok {inv : (κ → κ → K) → κ → κ → K} {m : Est} {c : ℕ} {n : Nuis (Sub sg c) κ K} {w : ι → K}
    {x : ι → κ → K} {dy : ι → K} {r : K × (ι → K)} (h : compDid inv m sg c n w x dy = .ok r) :
    mean (wTreat sg c n w) ≠ 0 ∧ mean (wControl m sg c n w) ≠ 0 ∧
      r = (compAtt m sg c n w dy, scatter sg c (compIF inv m sg c n w x dy)) := by
  unfold compDid at h
  split_ifs at h with h1 h2
  exact ⟨h1, h2, by simpa using h.symm⟩

lemma dddPanel_ok {F : Fits sg κ K} {m : Est} {hi level : K} {y1 y0 : ι → K} {x : ι → κ → K} {w0 : ι → K}
    {r : K × (ι → K)} (h : dddPanel F m hi level y1 y0 x w0 = .ok r) :
    (∀ i, 0 ≤ w0 i) ∧ (∀ i, sg i ∈ [1, 2, 3, 4]) ∧ (∃ i, sg i = 4) ∧
      allDid F m hi level (DR.normalize w0) x (fun i => y1 i - y0 i) = .ok r := by
  unfold dddPanel at h
  split_ifs at h with h1 h2 h3
  push Not at h1 h2
  exact ⟨h1, h2, by tauto, h⟩

/-- The propensity scores used in comparison `c`: fitted among subgroups 4 and `c`, capped at `hi`. -/
def score (F : Fits sg κ K) (hi : K) (c : ℕ) (w : ι → K) (x : ι → κ → K) (i : Sub sg c) : K :=
  min (F.logit c (onSub sg c w) (pa4 sg c) (onSub sg c x) i) hi

/-- The regression predictions used in comparison `c`: fitted among the comparison subgroup. -/
def prediction (F : Fits sg κ K) (c : ℕ) (w : ι → K) (x : ι → κ → K) (dy : ι → K) : Sub sg c → K :=
  fitted (onSub sg c x) (F.ols c (onSub sg c w) (notB (pa4 sg c)) (onSub sg c x) (onSub sg c dy))

lemma nuis_keep (F : Fits sg κ K) {m : Est} (hm : m ≠ .reg) (hi level : K) (c : ℕ) (w : ι → K) (x : ι → κ → K)
    (dy : ι → K) : (nuis F m hi level c w x dy).keep = DR.trim level (pa4 sg c) (score F hi c w x) := by
  unfold nuis; simp only [if_neg hm]; rfl

lemma nuis_ps (F : Fits sg κ K) {m : Est} (hm : m ≠ .reg) (hi level : K) (c : ℕ) (w : ι → K) (x : ι → κ → K)
    (dy : ι → K) : (nuis F m hi level c w x dy).ps = score F hi c w x := by
  unfold nuis; simp only [if_neg hm]; rfl

lemma nuis_out (F : Fits sg κ K) {m : Est} (hm : m ≠ .ipw) (hi level : K) {c : ℕ} (hc : c ≠ 4) (w : ι → K)
    (x : ι → κ → K) (dy : ι → K) : (nuis F m hi level c w x dy).out = prediction F c w x dy := by
  unfold nuis prediction; simp only [if_neg hm, paComp_fun hc]

/-- **C49 (combination, DR).** Whenever `ddd_panel` returns, its estimate is `att(4v3) + att(4v2) - att(4v1)`, each one
the `drdid_panel` estimate on the two subgroups (scores and regression fitted on those subgroups alone). -/
theorem C49_dr_combination (F : Fits sg κ K) (hi level : K) (y1 y0 : ι → K) (x : ι → κ → K) (w0 : ι → K)
    (r : K × (ι → K)) (h : dddPanel F .dr hi level y1 y0 x w0 = .ok r) :
    let w := DR.normalize w0
    let dy := fun i => y1 i - y0 i
    let att := fun c => DR.drPanel (pa4 sg c) (DR.trim level (pa4 sg c) (score F hi c w x)) (score F hi c w x)
      (prediction F c w x dy) (onSub sg c dy) (onSub sg c w)
    r.1 = att 3 + att 2 - att 1 := by
  obtain ⟨_, _, _, h⟩ := dddPanel_ok h
  obtain ⟨r3, r2, r1, h3, h2, h1, rfl⟩ := allDid_ok h
  have hm : Est.dr ≠ .reg := by decide
  have hm' : Est.dr ≠ .ipw := by decide
  rw [(compDid_ok h3).2.2, (compDid_ok h2).2.2, (compDid_ok h1).2.2]
  simp only [combine3]
  rw [compAtt_dr hm (by decide), compAtt_dr hm (by decide), compAtt_dr hm (by decide)]
  simp only [nuis_keep _ hm, nuis_ps _ hm]
  rw [nuis_out _ hm' _ _ (by decide), nuis_out _ hm' _ _ (by decide), nuis_out _ hm' _ _ (by decide)]

/-- **C49 (combination, IPW).** -/
theorem C49_ipw_combination (F : Fits sg κ K) (hi level : K) (y1 y0 : ι → K) (x : ι → κ → K) (w0 : ι → K)
    (r : K × (ι → K)) (h : dddPanel F .ipw hi level y1 y0 x w0 = .ok r) :
    let w := DR.normalize w0
    let dy := fun i => y1 i - y0 i
    let att := fun c => DR.ipwPanel (pa4 sg c) (DR.trim level (pa4 sg c) (score F hi c w x)) (score F hi c w x)
      (onSub sg c dy) (onSub sg c w)
    r.1 = att 3 + att 2 - att 1 := by
  obtain ⟨_, _, _, h⟩ := dddPanel_ok h
  obtain ⟨r3, r2, r1, h3, h2, h1, rfl⟩ := allDid_ok h
  have hm : Est.ipw ≠ .reg := by decide
  have ho : ∀ c w x dy, (nuis F .ipw hi level c w x dy).out = fun _ => 0 := by intros; unfold nuis; simp
  rw [(compDid_ok h3).2.2, (compDid_ok h2).2.2, (compDid_ok h1).2.2]
  simp only [combine3]
  rw [compAtt_dr hm (by decide), compAtt_dr hm (by decide), compAtt_dr hm (by decide)]
  simp only [nuis_keep _ hm, nuis_ps _ hm, ho, drPanel_zero]

/-- Weighted residuals of a regression with an intercept average to zero over its estimation sample. -/
lemma resid_zero {σ : Type*} [Fintype σ] [Nonempty σ] (w y : σ → K) (sel : σ → Bool) (x : σ → κ → K) (β : κ → K)
    (one : κ) (hx : ∀ i, x i one = 1) (h : NormalEq w sel x y β) :
    DR.wmean (fun i => ind sel i * w i) (fun i => y i - fitted x β i) = 0 := by
  rw [DR.wmean_group]
  unfold wavg
  have := h one
  simp only [hx, mul_one] at this
  unfold fitted
  rw [this, zero_div]

/-- **C49 (combination, REG).** With an intercept column among the covariates and a regression solving its normal
equations, each comparison is the `reg_did_panel` estimate on the two subgroups. -/
theorem C49_reg_combination (F : Fits sg κ K) (hi level : K) (y1 y0 : ι → K) (x : ι → κ → K) (w0 : ι → K)
    (one : κ) (hx : ∀ i, x i one = 1)
    (hols : ∀ c ∈ [1, 2, 3], NormalEq (onSub sg c (DR.normalize w0)) (notB (pa4 sg c)) (onSub sg c x)
      (onSub sg c fun i => y1 i - y0 i)
      (F.ols c (onSub sg c (DR.normalize w0)) (notB (pa4 sg c)) (onSub sg c x) (onSub sg c fun i => y1 i - y0 i)))
    (r : K × (ι → K)) (h : dddPanel F .reg hi level y1 y0 x w0 = .ok r) :
    let w := DR.normalize w0
    let dy := fun i => y1 i - y0 i
    let att := fun c => DR.regPanel (pa4 sg c) (prediction F c w x dy) (onSub sg c dy) (onSub sg c w)
    r.1 = att 3 + att 2 - att 1 := by
  obtain ⟨_, _, ⟨i4, hi4⟩, h⟩ := dddPanel_ok h
  obtain ⟨r3, r2, r1, h3, h2, h1, rfl⟩ := allDid_ok h
  have hm' : Est.reg ≠ .ipw := by decide
  have key : ∀ c ∈ [1, 2, 3], compAtt .reg sg c (nuis F .reg hi level c (DR.normalize w0) x fun i => y1 i - y0 i)
      (DR.normalize w0) (fun i => y1 i - y0 i) =
      DR.regPanel (pa4 sg c) (prediction F c (DR.normalize w0) x fun i => y1 i - y0 i)
        (onSub sg c fun i => y1 i - y0 i) (onSub sg c (DR.normalize w0)) := by
    intro c hc3
    have hc : c ≠ 4 := by rintro rfl; simp at hc3
    have : Nonempty (Sub sg c) := ⟨⟨i4, .inl hi4⟩⟩
    rw [compAtt_reg _ (by unfold nuis; simp), nuis_out _ hm' _ _ hc, paComp_fun hc]
    unfold prediction
    have hr := resid_zero (x := onSub sg c x) _ _ _ _ one (fun i : Sub sg c => hx i.1) (hols c hc3)
    generalize F.ols c (onSub sg c (DR.normalize w0)) (notB (pa4 sg c)) (onSub sg c x)
      (onSub sg c fun i => y1 i - y0 i) = β at hr ⊢
    rw [hr, sub_zero, DR.wmean_sub]
    unfold DR.regPanel
    have : (fun i => ind (pa4 sg c) i * onSub sg c (DR.normalize w0) i) =
      fun i => onSub sg c (DR.normalize w0) i * ind (pa4 sg c) i := by funext i; ring
    rw [this]
  rw [(compDid_ok h3).2.2, (compDid_ok h2).2.2, (compDid_ok h1).2.2]
  simp only [combine3]
  rw [key 3 (by simp), key 2 (by simp), key 1 (by simp)]

/-! ## Without covariates -/

/-- Intercept-only fits: normal equations, constant scores solving the likelihood equations. -/
structure InterceptFits (F : Fits sg Unit K) (w : ι → K) (x : ι → Unit → K) (dy : ι → K) : Prop where
  ones : ∀ i, x i () = 1
  ols : ∀ c ∈ [1, 2, 3], NormalEq (onSub sg c w) (notB (pa4 sg c)) (onSub sg c x) (onSub sg c dy)
    (F.ols c (onSub sg c w) (notB (pa4 sg c)) (onSub sg c x) (onSub sg c dy))
  logit : ∀ c ∈ [1, 2, 3], ∃ p, F.logit c (onSub sg c w) (pa4 sg c) (onSub sg c x) = fun _ => p
  score : ∀ c ∈ [1, 2, 3], ScoreEq (onSub sg c w) (pa4 sg c) (onSub sg c x)
    (F.logit c (onSub sg c w) (pa4 sg c) (onSub sg c x))

/-- Weight share of subgroup 4 in the comparison with subgroup `c`. -/
def share4 (sg : ι → ℕ) (w : ι → K) (c : ℕ) : K :=
  (∑ i with sg i = 4, w i) / (∑ i with sg i = 4, w i + ∑ i with sg i = c, w i)

lemma treatedShare_sub {c : ℕ} (hc : c ≠ 4) (w : ι → K) :
    treatedShare (onSub sg c w) (pa4 sg c) = share4 sg w c := by
  unfold treatedShare share4
  rw [DR.sum_split (pa4 sg c)]
  have e1 : ∑ i with pa4 sg c i = true, onSub sg c w i = ∑ i with sg i = 4, w i := by
    rw [← sum_sub (sg := sg) c 4 (.inl rfl) w]; simp [pa4, onSub]
  have e2 : ∑ i with pa4 sg c i = false, onSub sg c w i = ∑ i with sg i = c, w i := by
    rw [← sum_sub (sg := sg) c c (.inr rfl) w]
    apply Finset.sum_congr _ fun _ _ => rfl
    ext i; simp [pa4_false hc]
  rw [e1, e2]

/-- One comparison without covariates, for every method. -/
lemma comp_const (F : Fits sg Unit K) (m : Est) (hi level : K) {c : ℕ} (hc3 : c ∈ [1, 2, 3]) (w : ι → K) (x : ι → Unit → K)
    (y1 y0 : ι → K) (hF : InterceptFits F w x (fun i => y1 i - y0 i)) (hhi0 : 0 < hi) (hhi : hi < 1)
    (hw : ∀ i, 0 ≤ w i) (h4 : 0 < ∑ i with sg i = 4, w i) (hk : 0 < ∑ i with sg i = c, w i)
    (hlevel : m ≠ .reg → min (share4 sg w c) hi < level) :
    mean (wTreat sg c (nuis F m hi level c w x fun i => y1 i - y0 i) w) ≠ 0 ∧
    mean (wControl m sg c (nuis F m hi level c w x fun i => y1 i - y0 i) w) ≠ 0 ∧
    compAtt m sg c (nuis F m hi level c w x fun i => y1 i - y0 i) w (fun i => y1 i - y0 i) =
      change w sg y1 y0 4 - change w sg y1 y0 c := by
  have hc : c ≠ 4 := by rintro rfl; simp at hc3
  have hb := bothArms hc hw h4 hk
  have := hb.nonempty
  have hTm : mean (fun i => ind (pa4 sg c) i * onSub sg c w i) ≠ 0 := by
    rw [Ne, DR.mean_eq_zero, DR.sum_ind]; exact hb.treated.ne'
  have hCm : mean (fun i => ind (notB (pa4 sg c)) i * onSub sg c w i) ≠ 0 := by
    rw [Ne, DR.mean_eq_zero, DR.sum_notB]; exact hb.control.ne'
  have hout : ∃ a, (nuis F m hi level c w x fun i => y1 i - y0 i).out = fun _ => a := by
    by_cases hm : m = .ipw
    · exact ⟨0, by unfold nuis; simp [hm]⟩
    · refine ⟨F.ols c (onSub sg c w) (notB (pa4 sg c)) (onSub sg c x) (onSub sg c fun i => y1 i - y0 i) (), ?_⟩
      rw [nuis_out _ hm _ _ hc]
      funext i
      unfold prediction fitted
      exact (Fintype.sum_unique _).trans (by rw [onSub, hF.ones, one_mul])
  obtain ⟨a, ha⟩ := hout
  have hgrp : DR.wmean (fun i => ind (pa4 sg c) i * onSub sg c w i) (fun i => onSub sg c (fun i => y1 i - y0 i) i - a) -
      DR.wmean (fun i => ind (notB (pa4 sg c)) i * onSub sg c w i) (fun i => onSub sg c (fun i => y1 i - y0 i) i - a) =
      change w sg y1 y0 4 - change w sg y1 y0 c := by
    rw [DR.wmean_sub _ _ (fun _ => a), DR.wmean_sub _ _ (fun _ => a), DR.wmean_const _ _ hTm, DR.wmean_const _ _ hCm,
      DR.wmean_group, DR.wmean_group, ← did2x2_sub hc]
    unfold did2x2
    rw [DR.wavg_congr (S := fun i => notB (pa4 sg c) i = true) (T := fun i => pa4 sg c i = false) _ _
      (by intro i; simp [notB])]
    have : onSub sg c (fun i => y1 i - y0 i) = fun i => onSub sg c y1 i - onSub sg c y0 i := rfl
    rw [this]
    ring
  by_cases hm : m = .reg
  · subst hm
    have hkp : (nuis F .reg hi level c w x fun i => y1 i - y0 i).keep = fun _ => true := by unfold nuis; simp
    have hT : wTreat sg c (nuis F .reg hi level c w x fun i => y1 i - y0 i) w =
        fun i => ind (pa4 sg c) i * onSub sg c w i := by
      funext i; unfold wTreat; rw [hkp]; simp [ind, onSub]
    have hC : wControl .reg sg c (nuis F .reg hi level c w x fun i => y1 i - y0 i) w =
        fun i => ind (notB (pa4 sg c)) i * onSub sg c w i := by
      funext i; unfold wControl; rw [hkp, paComp_fun hc]; simp [ind, onSub]
    refine ⟨by rw [hT]; exact hTm, by rw [hC]; exact hCm, ?_⟩
    rw [compAtt_reg _ hkp, paComp_fun hc, ha, hgrp]
  · obtain ⟨p, hp⟩ := hF.logit c hc3
    have hsc := hF.score c hc3
    rw [hp] at hsc
    have hps := DR.intercept_logit _ _ _ (fun i => hF.ones i.1) _ hsc hb.total.ne'
    rw [treatedShare_sub hc] at hps
    have hq : score F hi c w x = fun _ => min p hi := by funext i; unfold score; rw [hp]
    have hq1 : min p hi < 1 := lt_of_le_of_lt (min_le_right _ _) hhi
    have hp0 : 0 < p := by
      rw [hps]; exact div_pos h4 (add_pos h4 hk)
    have hq0 : 0 < min p hi := lt_min hp0 hhi0
    have hql : min p hi < level := by rw [hps]; exact hlevel hm
    have hodds : min p hi / (1 - min p hi) ≠ 0 := (div_pos hq0 (sub_pos.2 hq1)).ne'
    have hT : wTreat sg c (nuis F m hi level c w x fun i => y1 i - y0 i) w =
        fun i => ind (pa4 sg c) i * onSub sg c w i := by
      have : wTreat sg c (nuis F m hi level c w x fun i => y1 i - y0 i) w =
        DR.wTreat (pa4 sg c) (nuis F m hi level c w x fun i => y1 i - y0 i).keep (onSub sg c w) := rfl
      rw [this, nuis_keep _ hm, DR.wTreat_trim]
    have hC : wControl m sg c (nuis F m hi level c w x fun i => y1 i - y0 i) w =
        fun i => min p hi / (1 - min p hi) * (ind (notB (pa4 sg c)) i * onSub sg c w i) := by
      rw [← DR.wCont_const hql]
      funext i
      unfold wControl DR.wCont
      rw [if_neg hm, paComp_fun hc, ind_notB, nuis_keep _ hm, nuis_ps _ hm, hq]; rfl
    refine ⟨by rw [hT]; exact hTm, ?_, ?_⟩
    · rw [hC, Ne, DR.mean_eq_zero, ← Finset.mul_sum, DR.sum_notB]
      exact mul_ne_zero hodds hb.control.ne'
    · rw [compAtt_dr hm hc, nuis_keep _ hm, nuis_ps _ hm, hq, ha]
      unfold DR.drPanel
      rw [DR.wTreat_trim, DR.wCont_const hql, DR.wmean_scale hodds, hgrp]

lemma normalize_pos {w : ι → K} (hw : ∀ i, 0 ≤ w i) {k : ℕ} (hk : 0 < ∑ i with sg i = k, w i) :
    0 < mean w := by
  have hs : 0 < ∑ i, w i := lt_of_lt_of_le hk
    (Finset.sum_le_sum_of_subset_of_nonneg (Finset.filter_subset _ _) fun i _ _ => hw i)
  have : Nonempty ι := by
    by_contra hn; rw [not_nonempty_iff] at hn; simp at hs
  unfold mean
  exact div_pos hs (by exact_mod_cast Fintype.card_pos)

lemma sum_normalize (w : ι → K) (k : ℕ) :
    ∑ i with sg i = k, DR.normalize w i = (∑ i with sg i = k, w i) / mean w := by
  unfold DR.normalize; rw [← Finset.sum_div]

lemma share4_normalize {w : ι → K} (h : 0 < mean w) (c : ℕ) : share4 sg (DR.normalize w) c = share4 sg w c := by
  unfold share4
  rw [sum_normalize, sum_normalize, ← add_div, div_div_div_cancel_right₀ h.ne']

/-- **C49 (no covariates).** For every estimation method, with intercept-only fits (any least-squares solution, any
constant solution of the likelihood equations), non-negative weights, positive weight in all four subgroups and the
capped shares below the trimming level, `ddd_panel` returns the triple difference of weighted mean changes. -/
theorem C49_no_covariates (F : Fits sg Unit K) (m : Est) (hi level : K) (y1 y0 : ι → K) (x : ι → Unit → K) (w : ι → K)
    (hF : InterceptFits F (DR.normalize w) x (fun i => y1 i - y0 i)) (hhi0 : 0 < hi) (hhi : hi < 1)
    (hsg : ∀ i, sg i ∈ [1, 2, 3, 4]) (hw : ∀ i, 0 ≤ w i) (hpos : ∀ k ∈ [1, 2, 3, 4], 0 < ∑ i with sg i = k, w i)
    (hlevel : m ≠ .reg → ∀ c ∈ [1, 2, 3], min (share4 sg w c) hi < level) :
    (dddPanel F m hi level y1 y0 x w).map Prod.fst = .ok (ddd w sg y1 y0) := by
  have hm := normalize_pos hw (hpos 4 (by simp))
  have hwn : ∀ i, 0 ≤ DR.normalize w i := fun i => div_nonneg (hw i) hm.le
  have hpn : ∀ k ∈ [1, 2, 3, 4], 0 < ∑ i with sg i = k, DR.normalize w i := by
    intro k hk; rw [sum_normalize]; exact div_pos (hpos k hk) hm
  have h4 : ∃ i, sg i = 4 := by
    by_contra hn
    push Not at hn
    have := hpos 4 (by simp)
    rw [Finset.filter_false_of_mem (by intro i _; exact hn i)] at this
    simp at this
  have key := fun (c : ℕ) (hc : c ∈ [1, 2, 3]) => comp_const F m hi level (c := c) hc (DR.normalize w) x y1 y0 hF hhi0 hhi hwn (hpn 4 (by simp))
    (hpn c (by simp at hc ⊢; tauto)) (fun h => by rw [share4_normalize hm]; exact hlevel h c hc)
  have hch : ∀ k, change (DR.normalize w) sg y1 y0 k = change w sg y1 y0 k := by
    intro k; unfold change; rw [DR.wavg_normalize _ _ hm.ne']
  unfold dddPanel
  rw [if_neg (by push Not; exact hw), if_neg (by push Not; exact hsg), if_neg (not_not.2 h4)]
  have kc : ∀ c ∈ [1, 2, 3], compDid F.inv m sg c (nuis F m hi level c (DR.normalize w) x fun i => y1 i - y0 i)
      (DR.normalize w) x (fun i => y1 i - y0 i) = .ok (change w sg y1 y0 4 - change w sg y1 y0 c,
        scatter sg c (compIF F.inv m sg c (nuis F m hi level c (DR.normalize w) x fun i => y1 i - y0 i)
          (DR.normalize w) x (fun i => y1 i - y0 i))) := by
    intro c hc
    obtain ⟨a, b, d⟩ := key c hc
    unfold compDid
    rw [if_neg a, if_neg b, d, hch, hch]
  unfold allDid
  rw [kc 3 (by simp), kc 2 (by simp), kc 1 (by simp)]
  simp only [bind, Except.bind, pure, Except.pure, Except.map, combine3, ddd]
  congr 1
  ring

end Verif.Triple
