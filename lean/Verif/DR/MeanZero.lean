import Verif.DR.RC

set_option linter.unusedSectionVars false

/-!
# Influence functions average to zero: C27
-/

namespace Verif.DR

variable {ι κ K : Type*} [Fintype ι] [Fintype κ] [Field K] [LinearOrder K] [IsStrictOrderedRing K]

lemma mean_add' (f g : ι → K) : mean (fun i => f i + g i) = mean f + mean g := by
  unfold mean; rw [Finset.sum_add_distrib, add_div]
lemma mean_sub' (f g : ι → K) : mean (fun i => f i - g i) = mean f - mean g := by
  unfold mean; rw [Finset.sum_sub_distrib, sub_div]
lemma mean_div' (f : ι → K) (c : K) : mean (fun i => f i / c) = mean f / c := by
  unfold mean; rw [← Finset.sum_div]; ring
lemma mean_mul' (f : ι → K) (c : K) : mean (fun i => f i * c) = mean f * c := by
  unfold mean; rw [← Finset.sum_mul]; ring

/-- A linear transformation of mean-zero rows has mean zero. -/
lemma mean_dot_zero (r : ι → K) (x : ι → κ → K) (M : κ → κ → K) (c : κ → K) (h : ∀ k, ∑ i, r i * x i k = 0) :
    mean (fun i => dot (fun k => ∑ l, r i * x i l * M l k) c) = 0 := by
  unfold mean dot
  have : ∑ i, ∑ k, (∑ l, r i * x i l * M l k) * c k = 0 := by
    rw [Finset.sum_comm]
    refine Finset.sum_eq_zero fun k _ => ?_
    rw [← Finset.sum_mul, Finset.sum_comm]
    have : ∑ l, ∑ i, r i * x i l * M l k = 0 := by
      refine Finset.sum_eq_zero fun l _ => ?_
      rw [← Finset.sum_mul, h, zero_mul]
    rw [this, zero_mul]
  rw [this, zero_div]

lemma mean_alrOLS {w y out : ι → K} {sel : ι → Bool} {s : ι → K} (hs : ∀ i, s i = if sel i then 1 else 0)
    {x : ι → κ → K} {β : κ → K} (hout : out = fitted x β) (h : NormalEq w sel x y β) (M : κ → κ → K) (c : κ → K) :
    mean (fun i => dot (alrOLS s w (fun i => y i - out i) x M i) c) = 0 := by
  unfold alrOLS
  apply mean_dot_zero (fun i => w i * s i * (y i - out i))
  intro k
  rw [← h k, Finset.sum_filter]
  refine Finset.sum_congr rfl fun i _ => ?_
  rw [hs, hout]
  unfold fitted
  by_cases hi : sel i = true <;> simp [hi]

lemma mean_alrPS {w ps : ι → K} {d : ι → Bool} {x : ι → κ → K} (h : ScoreEq w d x ps) (H : κ → κ → K) (c : κ → K) :
    mean (fun i => dot (alrPS d ps w x H i) c) = 0 := by
  unfold alrPS
  exact mean_dot_zero (fun i => w i * (ind d i - ps i)) x H c h

lemma mean_lead (w v : ι → K) (hw : mean w ≠ 0) : mean (lead w v) = 0 := by
  unfold lead
  rw [mean_sub' (fun i => w i * v i / mean w)]
  have : mean (fun i => w i * hmean w v / mean w) = hmean w v := by
    rw [mean_div' (fun i => w i * hmean w v), mean_mul' w, mul_comm, mul_div_assoc, div_self hw, mul_one]
  rw [this]
  exact sub_self _

lemma mean_center (w v : ι → K) (hw : mean w ≠ 0) : mean (fun i => w i * v i - w i * wmean w v) = 0 := by
  rw [mean_sub' (fun i => w i * v i), mean_mul' w]
  unfold wmean
  rw [mul_div_cancel₀ _ hw, sub_self]

lemma mean_mul_wmean (w v : ι → K) (hw : mean w ≠ 0) : mean w * wmean w v = mean (fun i => w i * v i) := by
  unfold wmean
  rw [mul_div_cancel₀ _ hw]

/-- **C27 (DR panel).** Under the least-squares and likelihood equations of the two fits, for whatever matrices are used
as inverse Gram and Hessian. -/
theorem C27_dr_panel (d tr : ι → Bool) (ps dy w : ι → K) (x : ι → κ → K) (β : κ → K) (M H : κ → κ → K)
    (hT : mean (wTreat d tr w) ≠ 0) (hC : mean (wCont d tr ps w) ≠ 0)
    (hols : NormalEq w (notB d) x dy β) (hps : ScoreEq w d x ps) :
    mean (drPanelIF d tr ps (fitted x β) dy w x M H) = 0 := by
  unfold drPanelIF
  have hs : ∀ i, (1 - ind d i : K) = if notB d i then 1 else 0 := by
    intro i; cases h : d i <;> simp [ind, notB, h]
  simp only
  simp only [mean_sub', mean_div', mean_add', mean_mul', mean_mul_wmean _ _ hT, mean_mul_wmean _ _ hC,
    mean_alrPS hps, mean_alrOLS hs rfl hols]
  simp

/-- **C27 (REG panel).** -/
theorem C27_reg_panel (d : ι → Bool) (dy w : ι → K) (x : ι → κ → K) (β : κ → K) (M : κ → κ → K)
    (hT : mean (fun i => w i * ind d i) ≠ 0) (hols : NormalEq w (notB d) x dy β) :
    mean (regPanelIF d (fitted x β) dy w x M) = 0 := by
  unfold regPanelIF
  have hs : ∀ i, (1 - ind d i : K) = if notB d i then 1 else 0 := by
    intro i; cases h : d i <;> simp [ind, notB, h]
  simp only
  have hm := fun v => mean_mul_wmean (fun i => w i * ind d i) v hT
  simp only [mean_sub', mean_div', mean_add', mean_mul', hm, mean_alrOLS hs rfl hols]
  simp

/-- **C27 (IPW panel).** -/
theorem C27_ipw_panel (d tr : ι → Bool) (ps dy w : ι → K) (x : ι → κ → K) (H : κ → κ → K)
    (hT : mean (wTreat d tr w) ≠ 0) (hC : mean (wCont d tr ps w) ≠ 0) (hps : ScoreEq w d x ps) :
    mean (ipwPanelIF d tr ps dy w x H) = 0 := by
  have e : ipwPanelIF d tr ps dy w x H = fun i => lead (wTreat d tr w) dy i -
      (lead (wCont d tr ps w) dy i + dot (alrPS d ps w x H i) (fun k => mean (fun i =>
        (wCont d tr ps w i * (dy i - hmean (wCont d tr ps w) dy)) * x i k) / mean (wCont d tr ps w))) := rfl
  rw [e, mean_sub' (lead (wTreat d tr w) dy), mean_add' (lead (wCont d tr ps w) dy), mean_lead _ _ hT,
    mean_lead _ _ hC, mean_alrPS hps]
  simp

/-- **C27 (improved DR panel).** Needs no property of the fits at all. -/
theorem C27_imp_panel (level : K) (d : ι → Bool) (ps out dy w : ι → K)
    (hT : mean (fun i => ind d i * w i) ≠ 0) :
    mean (impPanelIF d (trim level d ps) ps out dy w) = 0 := by
  unfold impPanelIF
  simp only
  rw [mean_div']
  have e : (fun i => w i * ind (trim level d ps) i * (ind (trim level d ps) i * (1 - (1 - ind d i) / (1 - ps i)) *
      (dy i - out i) - ind d i * impPanel d (trim level d ps) ps out dy w)) =
      fun i => w i * (ind (trim level d ps) i * (1 - (1 - ind d i) / (1 - ps i)) * (dy i - out i)) -
        (ind d i * w i) * impPanel d (trim level d ps) ps out dy w := by
    funext i
    cases hd : d i
    · rw [ind_false (b := d) hd]
      cases ht : trim level d ps i
      · rw [ind_false (b := trim level d ps) ht]; ring
      · rw [ind_true (b := trim level d ps) ht]; ring
    · rw [ind_true (b := d) hd, ind_true (trim_treated hd)]; ring
  rw [e, mean_sub', mean_mul']
  unfold impPanel
  rw [mul_div_cancel₀ _ hT, sub_self, zero_div]

/-! ## Repeated cross-sections -/

lemma cell_ind (d post : ι → Bool) (pre treat : Bool) (i : ι) :
    ((if treat then ind d i else 1 - ind d i) * (if pre then preK post i else postK post i) : K) =
      if cellSel d post pre treat i then 1 else 0 := by
  cases hd : d i <;> cases hp : post i <;> cases pre <;> cases treat <;>
    simp [cellSel, ind, preK, postK, hd, hp]

/-- **C27 (IPW, repeated cross-sections).** -/
theorem C27_ipw_rc (d tr post : ι → Bool) (ps y w : ι → K) (x : ι → κ → K) (H : κ → κ → K)
    (hT0 : mean (wTreatRC d tr w (preK post)) ≠ 0) (hT1 : mean (wTreatRC d tr w (postK post)) ≠ 0)
    (hC0 : mean (wContRC d tr ps w (preK post)) ≠ 0) (hC1 : mean (wContRC d tr ps w (postK post)) ≠ 0)
    (hps : ScoreEq w d x ps) :
    mean (ipwRCIF d tr post ps y w x H) = 0 := by
  unfold ipwRCIF
  simp only
  rw [mean_sub', mean_sub' (lead (wTreatRC d tr w (postK post)) y), mean_add',
    mean_sub' (lead (wContRC d tr ps w (postK post)) y), mean_alrPS hps,
    mean_lead _ _ hT0, mean_lead _ _ hT1, mean_lead _ _ hC0, mean_lead _ _ hC1]
  simp

/-- **C27 (REG, repeated cross-sections).** -/
theorem C27_reg_rc (d post : ι → Bool) (y w : ι → K) (x : ι → κ → K) (β0 β1 : κ → K) (M0 M1 : κ → κ → K)
    (hT0 : mean (fun i => w i * ind d i * preK post i) ≠ 0)
    (hT1 : mean (fun i => w i * ind d i * postK post i) ≠ 0)
    (hT : mean (fun i => w i * ind d i) ≠ 0)
    (h0 : NormalEq w (cellSel d post true false) x y β0) (h1 : NormalEq w (cellSel d post false false) x y β1) :
    mean (regRCIF d post (fitted x β0) (fitted x β1) y w x M0 M1) = 0 := by
  have c0 := cell_ind (K := K) d post true false
  have c1 := cell_ind (K := K) d post false false
  simp only [if_true, Bool.false_eq_true, if_false] at c0 c1
  unfold regRCIF
  simp only
  have hm := fun v => mean_mul_wmean (fun i => w i * ind d i) v hT
  have hm0 := fun v => mean_mul_wmean (fun i => w i * ind d i * preK post i) v hT0
  have hm1 := fun v => mean_mul_wmean (fun i => w i * ind d i * postK post i) v hT1
  simp only [mean_sub', mean_div', mean_add', mean_mul', hm, hm0, hm1, mean_alrOLS c0 rfl h0, mean_alrOLS c1 rfl h1]
  simp

/-- **C27 (traditional DR, repeated cross-sections).** -/
theorem C27_trad_rc (d tr post : ι → Bool) (ps y w : ι → K) (x : ι → κ → K) (β0 β1 : κ → K) (M0 M1 H : κ → κ → K)
    (hT0 : mean (wTreatRC d tr w (preK post)) ≠ 0) (hT1 : mean (wTreatRC d tr w (postK post)) ≠ 0)
    (hC0 : mean (wContRC d tr ps w (preK post)) ≠ 0) (hC1 : mean (wContRC d tr ps w (postK post)) ≠ 0)
    (hps : ScoreEq w d x ps)
    (h0 : NormalEq w (cellSel d post true false) x y β0) (h1 : NormalEq w (cellSel d post false false) x y β1) :
    mean (tradRCIF d tr post ps (fitted x β0) (fitted x β1) y w x M0 M1 H) = 0 := by
  have c0 := cell_ind (K := K) d post true false
  have c1 := cell_ind (K := K) d post false false
  simp only [if_true, Bool.false_eq_true, if_false] at c0 c1
  unfold tradRCIF
  simp only
  simp only [mean_sub', mean_add', mean_alrPS hps, mean_lead _ _ hT0, mean_lead _ _ hT1, mean_lead _ _ hC0,
    mean_lead _ _ hC1, mean_alrOLS c0 rfl h0, mean_alrOLS c1 rfl h1]
  simp

lemma mean_dot_sub (f g : ι → κ → K) (c : κ → K) :
    mean (fun i => dot (fun k => f i k - g i k) c) = mean (fun i => dot (f i) c) - mean (fun i => dot (g i) c) := by
  rw [← mean_sub']
  congr 1
  funext i
  unfold dot
  rw [← Finset.sum_sub_distrib]
  exact Finset.sum_congr rfl fun k _ => by ring

/-- **C27 (locally efficient DR, repeated cross-sections).** -/
theorem C27_dr_rc (d tr post : ι → Bool) (ps y w : ι → K) (x : ι → κ → K) (β0 β1 t0 t1 : κ → K)
    (M0 M1 N0 N1 H : κ → κ → K)
    (hT : mean (fun i => ind tr i * w i * ind d i) ≠ 0)
    (hT0 : mean (wTreatRC d tr w (preK post)) ≠ 0) (hT1 : mean (wTreatRC d tr w (postK post)) ≠ 0)
    (hC0 : mean (wContRC d tr ps w (preK post)) ≠ 0) (hC1 : mean (wContRC d tr ps w (postK post)) ≠ 0)
    (hps : ScoreEq w d x ps)
    (h0 : NormalEq w (cellSel d post true false) x y β0) (h1 : NormalEq w (cellSel d post false false) x y β1)
    (g0 : NormalEq w (cellSel d post true true) x y t0) (g1 : NormalEq w (cellSel d post false true) x y t1) :
    mean (drRCIF d tr post ps (fitted x β0) (fitted x β1) (fitted x t0) (fitted x t1) y w x M0 M1 N0 N1 H) = 0 := by
  have c0 := cell_ind (K := K) d post true false
  have c1 := cell_ind (K := K) d post false false
  have e0 := cell_ind (K := K) d post true true
  have e1 := cell_ind (K := K) d post false true
  simp only [if_true, Bool.false_eq_true, if_false] at c0 c1 e0 e1
  unfold drRCIF
  simp only
  have l1 := fun v => mean_lead (fun i => ind tr i * w i * ind d i * postK post i) v hT1
  have l0 := fun v => mean_lead (fun i => ind tr i * w i * ind d i * (1 - postK post i)) v hT0
  simp only [mean_sub', mean_add', C27_trad_rc d tr post ps y w x β0 β1 M0 M1 H hT0 hT1 hC0 hC1 hps h0 h1,
    mean_dot_sub, mean_alrOLS c0 rfl h0, mean_alrOLS c1 rfl h1, mean_alrOLS e0 rfl g0, mean_alrOLS e1 rfl g1,
    mean_lead _ _ hT, l0, l1]
  simp

/-! Non-vacuity: the five-unit panel and six-observation cross-section satisfy all equations. -/

example : mean (drPanelIF (κ := Unit) exD (fun _ => true) (exLogit exW exD (fun _ _ => 1))
    (fitted (fun _ _ => 1) (exOls exW (notB exD) (fun _ _ => 1) (fun i => exY1 i - exY0 i)))
    (fun i => exY1 i - exY0 i) exW (fun _ _ => 1) (fun _ _ => 5/6) (fun _ _ => 2)) = 0 := by
  apply C27_dr_panel
  · decide +kernel
  · decide +kernel
  · exact exOls_normal _ _ (by decide +kernel) _
  · intro k; revert k; decide +kernel

lemma exRNormal (pre treat : Bool) : NormalEq exRW (cellSel exRD exRP pre treat) (fun _ _ => 1) exRY
    (exROls exRW (cellSel exRD exRP pre treat) (fun _ _ => 1) exRY) := by
  intro k; revert pre treat k; decide +kernel

example : mean (drRCIF (κ := Unit) exRD (fun _ => true) exRP (exRLogit exRW exRD (fun _ _ => 1))
    (fitted (fun _ _ => 1) (exROls exRW (cellSel exRD exRP true false) (fun _ _ => 1) exRY))
    (fitted (fun _ _ => 1) (exROls exRW (cellSel exRD exRP false false) (fun _ _ => 1) exRY))
    (fitted (fun _ _ => 1) (exROls exRW (cellSel exRD exRP true true) (fun _ _ => 1) exRY))
    (fitted (fun _ _ => 1) (exROls exRW (cellSel exRD exRP false true) (fun _ _ => 1) exRY))
    exRY exRW (fun _ _ => 1) (fun _ _ => 2) (fun _ _ => 6) (fun _ _ => 3) (fun _ _ => 3/2) (fun _ _ => 4)) = 0 := by
  apply C27_dr_rc
  case h0 => exact exRNormal _ _
  case h1 => exact exRNormal _ _
  case g0 => exact exRNormal _ _
  case g1 => exact exRNormal _ _
  case hps => intro k; revert k; decide +kernel
  all_goals decide +kernel

end Verif.DR
