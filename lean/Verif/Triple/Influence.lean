import Verif.Triple.Props

/-!
# Triple differences, panel: influence functions (C50)
-/

set_option linter.unusedSectionVars false
set_option linter.unusedSimpArgs false

namespace Verif.Triple

open Verif.DR (mean ind fitted dot notB NormalEq ScoreEq BothArms treatedShare did2x2 wavg)

variable {ι κ K : Type*} [Fintype ι] [Fintype κ] [Field K] [LinearOrder K] [IsStrictOrderedRing K] {sg : ι → ℕ}

/-- The influence function of the two-group estimator of method `m` on the comparison 4 versus `c`: the one of
`drdid_panel`, `std_ipw_did_panel`, `reg_did_panel` for those units. -/
def twoGroupIF (m : Est) (F : Fits sg κ K) (hi level : K) (c : ℕ) (w : ι → K) (x : ι → κ → K) (dy : ι → K) :
    Sub sg c → K :=
  match m with
  | .dr => DR.drPanelIF (pa4 sg c) (DR.trim level (pa4 sg c) (score F hi c w x)) (score F hi c w x)
      (prediction F c w x dy) (onSub sg c dy) (onSub sg c w) (onSub sg c x) (F.inv (compGram sg c w x))
      (F.hess c (score F hi c w x))
  | .ipw => DR.ipwPanelIF (pa4 sg c) (DR.trim level (pa4 sg c) (score F hi c w x)) (score F hi c w x)
      (onSub sg c dy) (onSub sg c w) (onSub sg c x) (F.hess c (score F hi c w x))
  | .reg => DR.regPanelIF (pa4 sg c) (prediction F c w x dy) (onSub sg c dy) (onSub sg c w) (onSub sg c x)
      (F.inv (compGram sg c w x))

lemma nuis_H (F : Fits sg κ K) {m : Est} (hm : m ≠ .reg) (hi level : K) (c : ℕ) (w : ι → K) (x : ι → κ → K)
    (dy : ι → K) : (nuis F m hi level c w x dy).H = F.hess c (score F hi c w x) := by
  unfold nuis; simp only [if_neg hm]; rfl

lemma wControl_eq {m : Est} (hm : m ≠ .reg) {c : ℕ} (hc : c ≠ 4) (n : Nuis (Sub sg c) κ K) (w : ι → K) :
    wControl m sg c n w = DR.wCont (pa4 sg c) n.keep n.ps (onSub sg c w) := by
  funext i
  unfold wControl DR.wCont
  rw [if_neg hm, paComp_fun hc, ind_notB]; rfl

lemma compIF_dr (F : Fits sg κ K) (hi level : K) {c : ℕ} (hc : c ≠ 4) (w : ι → K) (x : ι → κ → K) (dy : ι → K) :
    compIF F.inv .dr sg c (nuis F .dr hi level c w x dy) w x dy = twoGroupIF .dr F hi level c w x dy := by
  have hm : Est.dr ≠ .reg := by decide
  have hm' : Est.dr ≠ .ipw := by decide
  funext i
  unfold compIF twoGroupIF DR.drPanelIF
  simp only [if_neg hm, if_neg hm']
  rw [wControl_eq hm hc, show wTreat sg c (nuis F .dr hi level c w x dy) w =
    DR.wTreat (pa4 sg c) (nuis F .dr hi level c w x dy).keep (onSub sg c w) from rfl]
  simp only [nuis_keep _ hm, nuis_ps _ hm, nuis_H _ hm, nuis_out _ hm' _ _ hc, paComp_fun hc, ind_notB]
  unfold DR.alrOLS DR.alrPS DR.wmean onSub
  simp only [mul_sub, sub_eq_add_neg]
  ring

lemma compIF_ipw (F : Fits sg κ K) (hi level : K) {c : ℕ} (hc : c ≠ 4) (w : ι → K) (x : ι → κ → K) (dy : ι → K) :
    compIF F.inv .ipw sg c (nuis F .ipw hi level c w x dy) w x dy = twoGroupIF .ipw F hi level c w x dy := by
  have hm : Est.ipw ≠ .reg := by decide
  have ho : (nuis F .ipw hi level c w x dy).out = fun _ => 0 := by unfold nuis; simp
  funext i
  unfold compIF twoGroupIF DR.ipwPanelIF
  simp only [if_neg hm, if_pos]
  rw [wControl_eq hm hc, show wTreat sg c (nuis F .ipw hi level c w x dy) w =
    DR.wTreat (pa4 sg c) (nuis F .ipw hi level c w x dy).keep (onSub sg c w) from rfl]
  simp only [nuis_keep _ hm, nuis_ps _ hm, nuis_H _ hm, ho, sub_zero, add_zero]
  set wt := DR.wTreat (pa4 sg c) (DR.trim level (pa4 sg c) (score F hi c w x)) (onSub sg c w)
  set wc := DR.wCont (pa4 sg c) (DR.trim level (pa4 sg c) (score F hi c w x)) (score F hi c w x) (onSub sg c w)
  have e1 : mean (fun i => wt i * onSub sg c dy i / mean wt) = mean (fun i => wt i * dy i.1) / mean wt :=
    DR.mean_div' (fun i => wt i * onSub sg c dy i) (mean wt)
  have e2 : mean (fun i => wc i * onSub sg c dy i / mean wc) = mean (fun i => wc i * dy i.1) / mean wc :=
    DR.mean_div' (fun i => wc i * onSub sg c dy i) (mean wc)
  rw [e1, e2]
  have e3 : ∀ (a b : κ → K) (q : K), dot a (fun k => b k / q) = dot a b / q := by
    intro a b q; unfold dot; rw [Finset.sum_div]
    exact Finset.sum_congr rfl fun k _ => (mul_div_assoc _ _ _).symm
  rw [e3]
  unfold DR.alrPS onSub
  ring

/-- The regression adjustment: with an intercept, the normal equations and a true inverse of the Gram matrix, the
control part of the influence function vanishes. -/
lemma compIF_reg (F : Fits sg κ K) (hi level : K) {c : ℕ} (hc : c ≠ 4) (w : ι → K) (x : ι → κ → K) (dy : ι → K)
    (one : κ) [DecidableEq κ] (hx : ∀ i, x i one = 1) [Nonempty (Sub sg c)]
    (hinv : ∀ l, ∑ k, F.inv (compGram sg c w x) l k * compGram sg c w x k one = if l = one then 1 else 0)
    (hols : NormalEq (onSub sg c w) (notB (pa4 sg c)) (onSub sg c x) (onSub sg c dy)
      (F.ols c (onSub sg c w) (notB (pa4 sg c)) (onSub sg c x) (onSub sg c dy))) :
    compIF F.inv .reg sg c (nuis F .reg hi level c w x dy) w x dy = twoGroupIF .reg F hi level c w x dy := by
  have hm : Est.reg ≠ .ipw := by decide
  have hkp : (nuis F .reg hi level c w x dy).keep = fun _ => true := by unfold nuis; simp
  have hT : wTreat sg c (nuis F .reg hi level c w x dy) w = fun i => onSub sg c w i * ind (pa4 sg c) i := by
    funext i; unfold wTreat; rw [hkp]; simp [ind, onSub]
  have hC : wControl .reg sg c (nuis F .reg hi level c w x dy) w = fun i => ind (notB (pa4 sg c)) i * onSub sg c w i := by
    funext i; unfold wControl; rw [hkp, paComp_fun hc]; simp [ind, onSub]
  have hr := resid_zero (x := onSub sg c x) _ _ _ _ one (fun i : Sub sg c => hx i.1) hols
  funext i
  unfold compIF twoGroupIF DR.regPanelIF
  simp only [if_neg hm, if_pos, hT, hC, nuis_out _ hm _ _ hc]
  have hz : mean (fun i => ind (notB (pa4 sg c)) i * onSub sg c w i * (dy i.1 - prediction F c w x dy i)) /
      mean (fun i => ind (notB (pa4 sg c)) i * onSub sg c w i) = 0 := hr
  rw [hz]
  have hxm : (fun k => mean fun i : Sub sg c => ind (notB (pa4 sg c)) i * onSub sg c w i * x i.1 k) =
      fun k => compGram sg c w x k one := by
    funext k
    unfold compGram
    congr 1
    funext i
    rw [hx, paComp_fun hc, mul_one]; unfold onSub; ring
  have hdot : dot (fun k => ∑ l, w i.1 * ind (paComp sg c) i * (dy i.1 - prediction F c w x dy i) * x i.1 l *
      F.inv (compGram sg c w x) l k) (fun k => compGram sg c w x k one) =
      w i.1 * ind (paComp sg c) i * (dy i.1 - prediction F c w x dy i) := by
    unfold dot
    simp only [Finset.sum_mul]
    rw [Finset.sum_comm]
    simp only [mul_assoc, ← Finset.mul_sum, hinv]
    simp [hx]
  rw [hxm, hdot, paComp_fun hc]
  have hwm : DR.wmean (fun i => onSub sg c w i * ind (pa4 sg c) i) (fun i => dy i.1 - prediction F c w x dy i) =
      DR.wmean (fun i => onSub sg c w i * ind (pa4 sg c) i) (onSub sg c dy) -
      DR.wmean (fun i => onSub sg c w i * ind (pa4 sg c) i) (prediction F c w x dy) :=
    DR.wmean_sub _ (onSub sg c dy) _
  change _ = _ at hwm
  unfold DR.wmean at hwm
  rw [hwm]
  unfold DR.alrOLS DR.wmean
  simp only [ind_notB]
  unfold onSub
  ring

/-! ## C50: support, rescaling, combination -/

/-- The fit conditions the `reg` method needs for its influence function to be the one of `reg_did_panel`. -/
structure RegFits (F : Fits sg κ K) (w : ι → K) (x : ι → κ → K) (dy : ι → K) (one : κ) [DecidableEq κ] : Prop where
  ones : ∀ i, x i one = 1
  inv : ∀ c ∈ [1, 2, 3], ∀ l, ∑ k, F.inv (compGram sg c w x) l k * compGram sg c w x k one = if l = one then 1 else 0
  ols : ∀ c ∈ [1, 2, 3], NormalEq (onSub sg c w) (notB (pa4 sg c)) (onSub sg c x) (onSub sg c dy)
    (F.ols c (onSub sg c w) (notB (pa4 sg c)) (onSub sg c x) (onSub sg c dy))

/-- `f` extended by zero outside subgroups 4 and `c`, scaled by (number of units) / (number of units compared). -/
def embed (sg : ι → ℕ) (c : ℕ) (f : Sub sg c → K) (i : ι) : K :=
  if h : sg i = 4 ∨ sg i = c then
    (Fintype.card ι : K) / ((Finset.univ.filter fun j => sg j = 4 ∨ sg j = c).card : K) * f ⟨i, h⟩ else 0

lemma ratio_scatter (c : ℕ) (h4 : ∃ i, sg i = 4) (f : Sub sg c → K) (i : ι) :
    ratio sg c * scatter sg c f i = embed sg c f i := by
  obtain ⟨i4, hi4⟩ := h4
  have : 0 < Fintype.card (Sub sg c) := Fintype.card_pos_iff.2 ⟨⟨i4, .inl hi4⟩⟩
  unfold ratio scatter embed
  rw [if_pos this, Fintype.card_subtype]
  split_ifs <;> simp

/-- **C50 (combination).** The influence function returned by `ddd_panel` is, with the signs of the estimate, the sum of
the three comparisons' influence functions (those of the two-group estimators), each zero outside its two subgroups and
rescaled by `n / n_comparison`. -/
theorem C50_combination [DecidableEq κ] (m : Est) (F : Fits sg κ K) (hi level : K) (y1 y0 : ι → K) (x : ι → κ → K)
    (w0 : ι → K) (hreg : m = .reg → ∃ one, RegFits F (DR.normalize w0) x (fun i => y1 i - y0 i) one)
    (r : K × (ι → K)) (h : dddPanel F m hi level y1 y0 x w0 = .ok r) (i : ι) :
    let ψ := fun c => twoGroupIF m F hi level c (DR.normalize w0) x (fun i => y1 i - y0 i)
    r.2 i = embed sg 3 (ψ 3) i + embed sg 2 (ψ 2) i - embed sg 1 (ψ 1) i := by
  obtain ⟨_, _, h4, h⟩ := dddPanel_ok h
  obtain ⟨r3, r2, r1, h3, h2, h1, rfl⟩ := allDid_ok h
  have key : ∀ c ∈ [1, 2, 3], compIF F.inv m sg c
      (nuis F m hi level c (DR.normalize w0) x fun i => y1 i - y0 i) (DR.normalize w0) x (fun i => y1 i - y0 i) =
      twoGroupIF m F hi level c (DR.normalize w0) x (fun i => y1 i - y0 i) := by
    intro c hm
    have hc : c ≠ 4 := by rintro rfl; simp at hm
    obtain ⟨i4, hi4⟩ := h4
    have : Nonempty (Sub sg c) := ⟨⟨i4, .inl hi4⟩⟩
    cases m with
    | dr => exact compIF_dr F hi level hc _ _ _
    | ipw => exact compIF_ipw F hi level hc _ _ _
    | reg =>
      obtain ⟨one, hR⟩ := hreg rfl
      exact compIF_reg F hi level hc _ _ _ one hR.ones (hR.inv c hm) (hR.ols c hm)
  rw [(compDid_ok h3).2.2, (compDid_ok h2).2.2, (compDid_ok h1).2.2]
  simp only [combine3]
  rw [key 3 (by simp), key 2 (by simp), key 1 (by simp), ratio_scatter 3 h4, ratio_scatter 2 h4,
    ratio_scatter 1 h4]

/-- A unit of an untreated subgroup only carries the comparison it takes part in. -/
theorem C50_untreated_units [DecidableEq κ] (m : Est) (F : Fits sg κ K) (hi level : K) (y1 y0 : ι → K) (x : ι → κ → K)
    (w0 : ι → K) (hreg : m = .reg → ∃ one, RegFits F (DR.normalize w0) x (fun i => y1 i - y0 i) one)
    (r : K × (ι → K)) (h : dddPanel F m hi level y1 y0 x w0 = .ok r) (i : ι) (hi3 : sg i = 3) :
    r.2 i = embed sg 3 (twoGroupIF m F hi level 3 (DR.normalize w0) x (fun i => y1 i - y0 i)) i := by
  have := C50_combination m F hi level y1 y0 x w0 hreg r h i
  simp only at this
  rw [this]
  unfold embed
  simp [hi3]

lemma mean_embed (c : ℕ) (f : Sub sg c → K) (hf : mean f = 0) : mean (embed sg c f) = 0 := by
  unfold mean at hf ⊢
  have hs : ∑ i, embed sg c f i = (Fintype.card ι : K) / ((Finset.univ.filter fun j => sg j = 4 ∨ sg j = c).card : K) *
      ∑ i, f i := by
    have h1 : ∑ i, embed sg c f i = ∑ i with (sg i = 4 ∨ sg i = c), embed sg c f i := by
      refine (Finset.sum_filter_of_ne ?_).symm
      intro i _ hne
      by_contra hn
      exact hne (by unfold embed; rw [dif_neg hn])
    rw [h1, Finset.sum_subtype (p := fun i => sg i = 4 ∨ sg i = c) _ (by intro i; simp), Finset.mul_sum]
    refine Finset.sum_congr rfl fun i _ => ?_
    unfold embed
    rw [dif_pos i.2]
  rw [hs]
  rcases div_eq_zero_iff.1 hf with h | h
  · rw [h]; simp
  · have hz : Fintype.card (Sub sg c) = 0 := by exact_mod_cast h
    have : IsEmpty (Sub sg c) := Fintype.card_eq_zero_iff.1 hz
    simp

/-- The least-squares and likelihood equations of the fits a method uses, in the three comparisons. -/
structure FirstOrder (m : Est) (F : Fits sg κ K) (hi : K) (w : ι → K) (x : ι → κ → K) (dy : ι → K) : Prop where
  ols : m ≠ .ipw → ∀ c ∈ [1, 2, 3], NormalEq (onSub sg c w) (notB (pa4 sg c)) (onSub sg c x) (onSub sg c dy)
    (F.ols c (onSub sg c w) (notB (pa4 sg c)) (onSub sg c x) (onSub sg c dy))
  score : m ≠ .reg → ∀ c ∈ [1, 2, 3], ScoreEq (onSub sg c w) (pa4 sg c) (onSub sg c x) (score F hi c w x)

lemma compIF_mean_zero (m : Est) (F : Fits sg κ K) (hi level : K) {c : ℕ} (hc3 : c ∈ [1, 2, 3]) (w : ι → K) (x : ι → κ → K)
    (dy : ι → K) (hF : FirstOrder m F hi w x dy)
    (hT : mean (wTreat sg c (nuis F m hi level c w x dy) w) ≠ 0)
    (hC : mean (wControl m sg c (nuis F m hi level c w x dy) w) ≠ 0) :
    mean (compIF F.inv m sg c (nuis F m hi level c w x dy) w x dy) = 0 := by
  have hc : c ≠ 4 := by rintro rfl; simp at hc3
  by_cases hm : m = .reg
  · subst hm
    have hm : Est.reg ≠ .ipw := by decide
    have hs : ∀ i, (ind (paComp sg c) i : K) = if notB (pa4 sg c) i then 1 else 0 := by
      intro i; rw [paComp_fun hc]; rfl
    have ha := fun M q => DR.mean_alrOLS (w := onSub sg c w) (y := onSub sg c dy) hs rfl (hF.ols hm c hc3) M q
    unfold compIF
    simp only [if_pos, if_neg hm, nuis_out _ hm _ _ hc]
    set wt := wTreat sg c (nuis F .reg hi level c w x dy) w
    set wc := wControl .reg sg c (nuis F .reg hi level c w x dy) w
    have e : ∀ q, mean (fun i : Sub sg c => - dot (fun k => ∑ l, w i.1 * ind (paComp sg c) i *
        (dy i.1 - prediction F c w x dy i) * x i.1 l * F.inv (compGram sg c w x) l k) q) = 0 := by
      intro q
      have := ha (F.inv (compGram sg c w x)) q
      have h2 : mean (fun i : Sub sg c => - dot (fun k => ∑ l, w i.1 * ind (paComp sg c) i *
        (dy i.1 - prediction F c w x dy i) * x i.1 l * F.inv (compGram sg c w x) l k) q) =
        - mean (fun i => dot (DR.alrOLS (ind (paComp sg c)) (onSub sg c w) (fun i => onSub sg c dy i -
          prediction F c w x dy i) (onSub sg c x) (F.inv (compGram sg c w x)) i) q) := by
        unfold mean; rw [Finset.sum_neg_distrib, neg_div]; rfl
      rw [h2]
      exact neg_eq_zero.2 this
    rw [DR.mean_sub', DR.mean_div', DR.mean_div', DR.mean_add', DR.mean_add', DR.mean_add', e, e]
    have c1 := DR.mean_center wt (fun i => dy i.1 - prediction F c w x dy i) hT
    have c2 := DR.mean_center wc (fun i => dy i.1 - prediction F c w x dy i) hC
    unfold DR.wmean at c1 c2
    rw [c1, c2]
    unfold mean
    simp
  · by_cases hi' : m = .ipw
    · subst hi'
      rw [compIF_ipw F hi level hc]
      rw [wControl_eq hm hc, nuis_keep _ hm, nuis_ps _ hm] at hC
      have hT' : mean (DR.wTreat (pa4 sg c) (DR.trim level (pa4 sg c) (score F hi c w x)) (onSub sg c w)) ≠ 0 := by
        have e : wTreat sg c (nuis F .ipw hi level c w x dy) w =
          DR.wTreat (pa4 sg c) (nuis F .ipw hi level c w x dy).keep (onSub sg c w) := rfl
        rw [e, nuis_keep _ hm] at hT; exact hT
      exact DR.C27_ipw_panel _ _ _ _ _ _ _ hT' hC (hF.score hm c hc3)
    · have : m = .dr := by cases m <;> simp_all
      subst this
      rw [compIF_dr F hi level hc]
      rw [wControl_eq hm hc, nuis_keep _ hm, nuis_ps _ hm] at hC
      have hT' : mean (DR.wTreat (pa4 sg c) (DR.trim level (pa4 sg c) (score F hi c w x)) (onSub sg c w)) ≠ 0 := by
        have e : wTreat sg c (nuis F .dr hi level c w x dy) w =
          DR.wTreat (pa4 sg c) (nuis F .dr hi level c w x dy).keep (onSub sg c w) := rfl
        rw [e, nuis_keep _ hm] at hT; exact hT
      exact DR.C27_dr_panel _ _ _ _ _ _ _ _ _ hT' hC (hF.ols hi' c hc3) (hF.score hm c hc3)

/-- **C50 (mean zero).** Under the first-order conditions of the fits, whenever `ddd_panel` returns, its influence
function averages to zero over all units, for every method and whatever matrices stand for the inverses. -/
theorem C50_mean_zero (m : Est) (F : Fits sg κ K) (hi level : K) (y1 y0 : ι → K) (x : ι → κ → K) (w0 : ι → K)
    (hF : FirstOrder m F hi (DR.normalize w0) x fun i => y1 i - y0 i)
    (r : K × (ι → K)) (h : dddPanel F m hi level y1 y0 x w0 = .ok r) : mean r.2 = 0 := by
  obtain ⟨_, _, h4, h⟩ := dddPanel_ok h
  obtain ⟨r3, r2, r1, h3, h2, h1, rfl⟩ := allDid_ok h
  obtain ⟨a3, b3, rfl⟩ := compDid_ok h3
  obtain ⟨a2, b2, rfl⟩ := compDid_ok h2
  obtain ⟨a1, b1, rfl⟩ := compDid_ok h1
  simp only [combine3]
  simp only [ratio_scatter _ h4]
  rw [DR.mean_sub', DR.mean_add']
  have z := fun c hc a b => mean_embed (sg := sg) c _ (compIF_mean_zero m F hi level (c := c) hc (DR.normalize w0) x
    (fun i => y1 i - y0 i) hF a b)
  have e3 := z 3 (by simp) a3 b3
  have e2 := z 2 (by simp) a2 b2
  have e1 := z 1 (by simp) a1 b1
  unfold mean at e3 e2 e1 ⊢
  rw [e3, e2, e1]; simp

end Verif.Triple
