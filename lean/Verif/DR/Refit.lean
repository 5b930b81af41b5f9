import Verif.DR.RefitModel
import Verif.DR.Lemmas
import Verif.DR.Props
import Verif.DR.RC

/-!
# Weighted bootstrap of the two-period estimators

What a user relies on: a replication is the *same* estimator, refitted with every unit's weight multiplied by its draw.
-/

set_option linter.unusedSectionVars false
set_option linter.unusedSimpArgs false

namespace Verif.DR

variable {ι κ K : Type*} [Fintype ι] [Fintype κ] [Field K] [LinearOrder K] [IsStrictOrderedRing K]

/-- A weighted least-squares routine whose answer does not change when all weights are multiplied by the same positive
number. -/
def OLS.ScaleFree (ols : OLS ι κ K) : Prop :=
  ∀ (c : K), 0 < c → ∀ (w : ι → K) (sel : ι → Bool) (x : ι → κ → K) (y : ι → K),
    ols (fun i => c * w i) sel x y = ols w sel x y

/-- The same for a routine fitting propensity scores. -/
def Logit.ScaleFree (logit : Logit ι κ K) : Prop :=
  ∀ (c : K), 0 < c → ∀ (w : ι → K) (d : ι → Bool) (x : ι → κ → K), logit (fun i => c * w i) d x = logit w d x

/-- `ScaleFree` is what least squares does: normal equations do not see a common factor, and with full rank they have one
solution. -/
lemma normalEq_scale {c : K} (hc : c ≠ 0) (w : ι → K) (sel : ι → Bool) (x : ι → κ → K) (y : ι → K) (β : κ → K) :
    NormalEq (fun i => c * w i) sel x y β ↔ NormalEq w sel x y β := by
  unfold NormalEq
  refine forall_congr' fun k => ?_
  have : ∑ i with sel i = true, c * w i * (y i - ∑ l, x i l * β l) * x i k =
      c * ∑ i with sel i = true, w i * (y i - ∑ l, x i l * β l) * x i k := by
    rw [Finset.mul_sum]; exact Finset.sum_congr rfl fun i _ => by ring
  rw [this]
  simp [hc]

/-- Non-negative weights that are not all zero. -/
structure GoodW (w : ι → K) : Prop where
  nonneg : ∀ i, 0 ≤ w i
  pos : ∃ i, 0 < w i

lemma GoodW.mean_pos {w : ι → K} (h : GoodW w) : 0 < mean w := by
  obtain ⟨i, hi⟩ := h.pos
  have hs : 0 < ∑ i, w i := Finset.sum_pos' (fun i _ => h.nonneg i) ⟨i, Finset.mem_univ _, hi⟩
  have : Nonempty ι := ⟨i⟩
  unfold mean
  exact div_pos hs (by exact_mod_cast Fintype.card_pos)

lemma GoodW.nonempty {w : ι → K} (h : GoodW w) : Nonempty ι := ⟨h.pos.choose⟩

lemma GoodW.draw {w v : ι → K} (h : GoodW w) (hv : ∀ i, 0 < v i) : GoodW (fun i => w i * v i) :=
  ⟨fun i => mul_nonneg (h.nonneg i) (hv i).le, by obtain ⟨i, hi⟩ := h.pos; exact ⟨i, mul_pos hi (hv i)⟩⟩

/-- The weights an estimator works with when given `w0 * v` are a positive multiple of the bootstrap weights. -/
lemma normalize_draw {w0 v : ι → K} (h : GoodW w0) (hv : ∀ i, 0 < v i) :
    ∃ c : K, 0 < c ∧ normalize (fun i => w0 i * v i) = fun i => c * drawW (normalize w0) v i := by
  refine ⟨mean w0 / mean (fun i => w0 i * v i), div_pos h.mean_pos (h.draw hv).mean_pos, ?_⟩
  funext i
  unfold normalize drawW
  have h1 := h.mean_pos.ne'
  have h2 := (h.draw hv).mean_pos.ne'
  field_simp

lemma mean_smul (c : K) (f : ι → K) : mean (fun i => c * f i) = c * mean f := by
  unfold mean; rw [← Finset.mul_sum, mul_div_assoc]

lemma noNeg {w : ι → K} (h : GoodW w) : ¬ ∃ i, w i < 0 := by
  push Not; exact h.nonneg

/-! ## Replications that are refits -/

/-- **C110 (standardised IPW, panel).** For every sample, unit weights and positive draws, a replication is
`std_ipw_did_panel` run with the weights multiplied by the draws (including when the result is NaN). -/
theorem C110_std_ipw_panel (logit : Logit ι κ K) (hl : logit.ScaleFree) (lo hi level : K) (y1 y0 : ι → K)
    (d : ι → Bool) (x : ι → κ → K) (w0 v : ι → K) (hw : GoodW w0) (hv : ∀ i, 0 < v i)
    (h1 : ∃ i, d i = true) (h0 : ∃ i, d i = false) :
    stdIpwDidPanel logit lo hi level y1 y0 d x (fun i => w0 i * v i) =
      .ok (wbootStdIpwPanel logit lo hi level (fun i => y1 i - y0 i) d x (normalize w0) v) := by
  obtain ⟨c, hc, hn⟩ := normalize_draw hw hv
  have := hw.nonempty
  unfold stdIpwDidPanel wbootStdIpwPanel
  simp only [hn, noNeg (hw.draw hv), hl c hc, h1, h0, not_true, if_false]
  set b := drawW (normalize w0) v
  set ps := clip lo hi (logit b d x)
  set tr := trim level d ps
  have e1 : wTreat d tr (fun i => c * b i) = fun i => c * (ind tr i * b i * ind d i) := by
    funext i; unfold wTreat; ring
  have e0 : wCont d tr ps (fun i => c * b i) = fun i => c * (ind tr i * b i * (1 - ind d i) * ps i / (1 - ps i)) := by
    funext i; unfold wCont; ring
  unfold ipwPanel
  rw [e1, e0]
  simp only [mean_smul, mul_eq_zero, hc.ne', false_or]
  split_ifs with ha hb
  · rfl
  · rfl
  · congr 2
    have k1 : ∀ (m : K) (u : ι → K), m ≠ 0 → mean (fun i => c * u i * (y1 i - y0 i) / (c * m)) =
        mean (fun i => u i * (y1 i - y0 i)) / m := by
      intro m u hm
      have hc' := hc.ne'
      have : (fun i => c * u i * (y1 i - y0 i) / (c * m)) = fun i => (1 / m) * (u i * (y1 i - y0 i)) := by
        funext i; field_simp
      rw [this, mean_smul]; ring
    rw [k1 _ _ ha, k1 _ _ hb]

/-- **C110 (IPW, panel).** -/
theorem C110_ipw_panel (logit : Logit ι κ K) (hl : logit.ScaleFree) (lo hi level : K) (y1 y0 : ι → K)
    (d : ι → Bool) (x : ι → κ → K) (w0 v : ι → K) (hw : GoodW w0) (hv : ∀ i, 0 < v i)
    (h1 : ∃ i, d i = true) (h0 : ∃ i, d i = false) :
    ipwDidPanel logit lo hi level y1 y0 d x (fun i => w0 i * v i) =
      .ok (wbootIpwPanel logit lo hi level (fun i => y1 i - y0 i) d x (normalize w0) v) := by
  obtain ⟨c, hc, hn⟩ := normalize_draw hw hv
  have := hw.nonempty
  have hN : (Fintype.card ι : K) ≠ 0 := card_ne
  unfold ipwDidPanel wbootIpwPanel
  simp only [hn, noNeg (hw.draw hv), hl c hc, h1, h0, not_true, if_false]
  set b := drawW (normalize w0) v
  set ps := clip lo hi (logit b d x)
  have e : (∑ i, cutW (trim level d ps) b i * ind d i) = ∑ i, b i * ind d i := by
    refine Finset.sum_congr rfl fun i _ => ?_
    cases hd : d i <;> simp [cutW, trim, ind, hd]
  have m1 : mean (fun i => c * b i * ind d i) = c * mean (fun i => b i * ind d i) := by
    simp only [mul_assoc, mean_smul]
  rw [e, m1]
  simp only [mul_eq_zero, hc.ne', false_or, mean_eq_zero]
  split_ifs with ha
  · rfl
  · congr 2
    have hs : ∑ i, cutW (trim level d ps) b i * ind (trim level d ps) i *
        (ind d i - ps i * (1 - ind d i) / (1 - ps i)) * (y1 i - y0 i) =
        ∑ i, ind (trim level d ps) i * b i * ind d i * (y1 i - y0 i) -
        ∑ i, ind (trim level d ps) i * b i * ps i * (1 - ind d i) / (1 - ps i) * (y1 i - y0 i) := by
      rw [← Finset.sum_sub_distrib]
      refine Finset.sum_congr rfl fun i _ => ?_
      cases ht : trim level d ps i
      · simp [cutW, ind, ht]
      · simp only [cutW, ind, ht, if_true]; ring
    rw [hs]
    have q1 : mean (fun i => wTreat d (trim level d ps) (fun i => c * b i) i * (y1 i - y0 i)) =
        c * mean (fun i => ind (trim level d ps) i * b i * ind d i * (y1 i - y0 i)) := by
      rw [← mean_smul]; congr 1; funext i; unfold wTreat; ring
    have q0 : mean (fun i => wCont d (trim level d ps) ps (fun i => c * b i) i * (y1 i - y0 i)) =
        c * mean (fun i => ind (trim level d ps) i * b i * ps i * (1 - ind d i) / (1 - ps i) * (y1 i - y0 i)) := by
      rw [← mean_smul]; congr 1; funext i; unfold wCont; ring
    rw [q1, q0]
    unfold mean
    have hc' := hc.ne'
    field_simp

/-- **C110 (outcome regression, panel).** Provided there are at least as many comparison units as regressors and some
treated unit has positive weight. -/
theorem C110_reg_panel (ols : OLS ι κ K) (hl : ols.ScaleFree) (y1 y0 : ι → K)
    (d : ι → Bool) (x : ι → κ → K) (w0 v : ι → K) (hw : GoodW w0) (hv : ∀ i, 0 < v i)
    (h1 : ∃ i, d i = true ∧ 0 < w0 i) (h0 : ∃ i, d i = false)
    (hn : Fintype.card κ ≤ (Finset.univ.filter (fun i => d i = false)).card) :
    regDidPanel ols y1 y0 d x (fun i => w0 i * v i) =
      .ok (wbootRegPanel ols (fun i => y1 i - y0 i) d x (normalize w0) v) := by
  obtain ⟨c, hc, hN⟩ := normalize_draw hw hv
  have := hw.nonempty
  have hcard : (Finset.univ.filter (fun i => d i = false)).card ≠ 0 := by
    obtain ⟨i, hi⟩ := h0
    exact (Finset.card_pos.2 ⟨i, by simp [hi]⟩).ne'
  unfold regDidPanel wbootRegPanel
  simp only [hN, noNeg (hw.draw hv), hl c hc, if_false, hcard, not_lt.2 hn, and_false]
  set b := drawW (normalize w0) v with hb
  have hden : mean (fun i => b i * ind d i) ≠ 0 := by
    rw [Ne, mean_eq_zero]
    obtain ⟨i, hd, hwi⟩ := h1
    refine (Finset.sum_pos' (fun j _ => ?_) ⟨i, Finset.mem_univ _, ?_⟩).ne'
    · have : 0 ≤ b j := mul_nonneg (div_nonneg (hw.nonneg j) hw.mean_pos.le) (hv j).le
      unfold ind; split_ifs <;> simp [this]
    · have : 0 < b i := mul_pos (div_pos hwi hw.mean_pos) (hv i)
      simpa [ind, hd] using this
  have m1 : mean (fun i => c * b i * ind d i) = c * mean (fun i => b i * ind d i) := by
    simp only [mul_assoc, mean_smul]
  simp only [m1, mul_eq_zero, hc.ne', hden, or_self, if_false]
  congr 2
  unfold regPanel
  rw [← wmean_sub]
  have : (fun i => c * b i * ind d i) = fun i => c * (b i * ind d i) := by funext i; ring
  rw [this, wmean_scale hc.ne']
  rfl

section RC

lemma sub?_eq_some {a b : Option K} {r : K} (h : sub? a b = some r) : ∃ p q, a = some p ∧ b = some q ∧ r = p - q := by
  unfold sub? at h
  cases a <;> cases b <;> simp_all

lemma wsum_eq_some {w y : ι → K} {r : K} (h : wsum w y = some r) : ∑ i, w i ≠ 0 ∧ r = (∑ i, w i * y i) / ∑ i, w i := by
  unfold wsum at h
  split_ifs at h with h0
  exact ⟨h0, (Option.some.inj h).symm⟩

/-- A weighted mean reported by a replication is the estimator's weighted mean under any positive multiple of the weights. -/
lemma wsum_hmean [Nonempty ι] {w u y : ι → K} {c r : K} (hc : c ≠ 0) (h : wsum w y = some r) (hu : ∀ i, u i = c * w i) :
    hmean u y = r := by
  obtain ⟨h0, rfl⟩ := wsum_eq_some h
  have : u = fun i => c * w i := funext hu
  rw [this, hmean_eq_wmean, wmean_scale hc, wmean_eq]

/-- **C110 (standardised IPW, repeated cross-sections).** Whenever a replication is a number, it is the number
`std_ipw_did_rc` gives with the weights multiplied by the draws. -/
theorem C110_std_ipw_rc (logit : Logit ι κ K) (hl : logit.ScaleFree) (lo hi level : K) (y : ι → K)
    (post d : ι → Bool) (x : ι → κ → K) (w0 v : ι → K) (hw : GoodW w0) (hv : ∀ i, 0 < v i)
    (hchk : rcChecks d post w0 = true) (r : K)
    (hr : wbootStdIpwRC logit lo hi level y post d x (normalize w0) v = some r) :
    stdIpwDidRC logit lo hi level y post d x (fun i => w0 i * v i) = some r := by
  obtain ⟨c, hc, hn⟩ := normalize_draw hw hv
  have := hw.nonempty
  have hchk' : rcChecks d post (fun i => w0 i * v i) = true := by
    simp only [rcChecks, decide_eq_true_eq] at hchk ⊢
    exact ⟨noNeg (hw.draw hv), hchk.2⟩
  unfold stdIpwDidRC
  rw [if_pos hchk']
  simp only [hn, hl c hc]
  unfold wbootStdIpwRC at hr
  set b := drawW (normalize w0) v
  set ps := clip lo hi (logit b d x)
  set tr := trim level d ps
  obtain ⟨p, q, hp, hq, rfl⟩ := sub?_eq_some hr
  obtain ⟨p1, p0, h1, h0, rfl⟩ := sub?_eq_some hp
  obtain ⟨q1, q0, g1, g0, rfl⟩ := sub?_eq_some hq
  unfold ipwRC
  have hcut : ∀ (f : ι → K) i, cutW tr f i = ind tr i * f i := by
    intro f i; unfold cutW ind; split_ifs <;> simp
  rw [wsum_hmean hc.ne' h1 (fun i => by unfold wTreatRC; rw [hcut]; ring),
    wsum_hmean hc.ne' h0 (fun i => by unfold wTreatRC preK postK; rw [hcut]; ring),
    wsum_hmean hc.ne' g1 (fun i => by
      unfold wContRC; rw [hcut, hcut]
      cases ht : tr i <;> simp [ind, ht]; ring),
    wsum_hmean hc.ne' g0 (fun i => by
      unfold wContRC preK postK; rw [hcut, hcut]
      cases ht : tr i <;> simp [ind, ht]; ring)]

/-- **C110 (outcome regression, repeated cross-sections).** -/
theorem C110_reg_rc (ols : OLS ι κ K) (hl : ols.ScaleFree) (y : ι → K)
    (post d : ι → Bool) (x : ι → κ → K) (w0 v : ι → K) (hw : GoodW w0) (hv : ∀ i, 0 < v i)
    (hchk : rcChecks d post w0 = true) (r : K)
    (hr : wbootRegRC ols y post d x (normalize w0) v = some r) :
    regDidRC ols y post d x (fun i => w0 i * v i) = some r := by
  obtain ⟨c, hc, hn⟩ := normalize_draw hw hv
  have := hw.nonempty
  have hchk' : rcChecks d post (fun i => w0 i * v i) = true := by
    simp only [rcChecks, decide_eq_true_eq] at hchk ⊢
    exact ⟨noNeg (hw.draw hv), hchk.2⟩
  unfold regDidRC
  rw [if_pos hchk']
  simp only [hn, hl c hc]
  unfold wbootRegRC at hr
  dsimp only at hr
  split_ifs at hr
  set b := drawW (normalize w0) v
  obtain ⟨p, q, hp, hq, rfl⟩ := sub?_eq_some hr
  obtain ⟨p1, p0, h1, h0, rfl⟩ := sub?_eq_some hp
  unfold regRC
  simp only [← hmean_eq_wmean]
  rw [wsum_hmean hc.ne' h1 (fun i => by ring),
    wsum_hmean hc.ne' h0 (fun i => by unfold preK postK; ring),
    wsum_hmean hc.ne' hq (fun i => by ring)]

end RC

/-! ## Improved estimators: refits only while nothing is trimmed -/

/-- No comparison observation is trimmed at the fitted scores. -/
def NoTrim (level : K) (d : ι → Bool) (ps : ι → K) : Prop := ∀ i, d i = false → ps i < level

lemma NoTrim.all {level : K} {d : ι → Bool} {ps : ι → K} (h : NoTrim level d ps) : trim level d ps = fun _ => true := by
  funext i
  unfold trim
  cases hd : d i
  · simpa using h i hd
  · simp

lemma renorm_scale [Nonempty ι] (w : ι → K) (hw : mean w ≠ 0) : ∃ c : K, c ≠ 0 ∧ renorm w = fun i => c * w i :=
  ⟨1 / mean w, one_div_ne_zero hw, by funext i; unfold renorm; rw [if_neg hw]; ring⟩

/-- **C111 (improved panel estimator).** While no comparison unit is trimmed and the outcome regression solves its normal
equations with an intercept, a replication that is a number is `drdid_imp_panel` with the weights multiplied by the draws. -/
theorem C111_imp_panel (ols : OLS ι κ K) (hl : ols.ScaleFree) (ipt : Logit ι κ K) (hi' : ipt.ScaleFree)
    (lo hi level : K) (y1 y0 : ι → K) (d : ι → Bool) (x : ι → κ → K) (w0 v : ι → K) (hw : GoodW w0)
    (hv : ∀ i, 0 < v i) (h0 : ∃ i, d i = false) (k0 : κ) (hx : ∀ i, x i k0 = 1) (r : K)
    (hhi : hi < 1)
    (hnt : NoTrim level d (clip lo hi (ipt (drawW (normalize w0) v) d x)))
    (hols : ∀ u : ι → K, NormalEq u (notB d) x (fun i => y1 i - y0 i) (ols u (notB d) x (fun i => y1 i - y0 i)))
    (hr : wbootImpPanel ols ipt lo hi level (fun i => y1 i - y0 i) d x (normalize w0) v = some r) :
    drdidImpPanel ols ipt lo hi level y1 y0 d x (fun i => w0 i * v i) = .ok r := by
  obtain ⟨c, hc, hn⟩ := normalize_draw hw hv
  have := hw.nonempty
  have hN : (Fintype.card ι : K) ≠ 0 := card_ne
  have hbpos : mean (drawW (normalize w0) v) ≠ 0 := by
    have := (hw.draw hv).mean_pos
    have e : drawW (normalize w0) v = fun i => (1 / mean w0) * (w0 i * v i) := by
      funext i; unfold drawW normalize; ring
    rw [e, mean_smul]
    exact (mul_pos (one_div_pos.2 hw.mean_pos) this).ne'
  unfold drdidImpPanel
  unfold wbootImpPanel at hr
  dsimp only at hr
  have hps : ∀ i, clip lo hi (ipt (drawW (normalize w0) v) d x) i ≠ 1 :=
    fun i => (lt_of_le_of_lt (min_le_left _ _) hhi).ne
  simp only [hn, noNeg (hw.draw hv), hi' c hc, h0, not_true, if_false]
  set b := drawW (normalize w0) v
  set ps := clip lo hi (ipt b d x)
  rw [hnt.all] at hr ⊢
  have hsc : (fun i => c * b i * (ps i / (1 - ps i))) = fun i => c * (b i * (ps i / (1 - ps i))) := by
    funext i; ring
  rw [hsc, hl c hc]
  have hcut : cutW (fun _ => true) b = b := by funext i; simp [cutW]
  rw [hcut] at hr
  have hno := hols (fun i => b i * (ps i / (1 - ps i))) k0
  set β := ols (fun i => b i * (ps i / (1 - ps i))) (notB d) x (fun i => y1 i - y0 i)
  obtain ⟨a, ha, hra⟩ := renorm_scale b hbpos
  unfold aipwPanel at hr
  simp only [hra] at hr
  obtain ⟨p, q, hp, hq, rfl⟩ := sub?_eq_some hr
  obtain ⟨hp0, rfl⟩ := wsum_eq_some hp
  obtain ⟨hq0, rfl⟩ := wsum_eq_some hq
  have hcz : ∑ i, b i * (ps i / (1 - ps i)) * (1 - ind d i) * (y1 i - y0 i - fitted x β i) = 0 := by
    have : ∑ i, b i * (ps i / (1 - ps i)) * (1 - ind d i) * (y1 i - y0 i - fitted x β i) =
        ∑ i, ind (notB d) i * (b i * (ps i / (1 - ps i)) * (y1 i - y0 i - fitted x β i)) := by
      refine Finset.sum_congr rfl fun i _ => ?_
      cases hd : d i <;> simp [ind, notB, hd]
    rw [this, sum_ind]
    refine Eq.trans (Finset.sum_congr rfl fun i _ => ?_) hno
    rw [hx i]; simp [fitted]
  have hc0 : ∑ i, a * b i * (1 - ind d i) * ps i / (1 - ps i) * (y1 i - y0 i - fitted x β i) = 0 := by
    rw [show ∑ i, a * b i * (1 - ind d i) * ps i / (1 - ps i) * (y1 i - y0 i - fitted x β i) =
      a * ∑ i, b i * (ps i / (1 - ps i)) * (1 - ind d i) * (y1 i - y0 i - fitted x β i) by
        rw [Finset.mul_sum]; exact Finset.sum_congr rfl fun i _ => by ring]
    rw [hcz, mul_zero]
  rw [hc0, zero_div, sub_zero]
  congr 1
  unfold impPanel mean
  have t1 : ∑ i, c * b i * (ind (fun _ => true) i * (1 - (1 - ind d i) / (1 - ps i)) * (y1 i - y0 i - fitted x β i)) =
      c * ∑ i, b i * ind d i * (y1 i - y0 i - fitted x β i) := by
    rw [← sub_zero (∑ i, b i * ind d i * (y1 i - y0 i - fitted x β i)), ← hcz, ← Finset.sum_sub_distrib,
      Finset.mul_sum]
    refine Finset.sum_congr rfl fun i _ => ?_
    have h1 : (1 : K) - ps i ≠ 0 := sub_ne_zero.2 (hps i).symm
    cases hd : d i
    · simp [ind, hd]; field_simp; ring
    · simp [ind, hd]; ring
  have t2 : ∑ i, ind d i * (c * b i) = c * ∑ i, b i * ind d i := by
    rw [Finset.mul_sum]; exact Finset.sum_congr rfl fun i _ => by ring
  have t3 : ∑ i, a * b i * ind d i = a * ∑ i, b i * ind d i := by
    rw [Finset.mul_sum]; exact Finset.sum_congr rfl fun i _ => by ring
  have t4 : ∑ i, a * b i * ind d i * (y1 i - y0 i - fitted x β i) =
      a * ∑ i, b i * ind d i * (y1 i - y0 i - fitted x β i) := by
    rw [Finset.mul_sum]; exact Finset.sum_congr rfl fun i _ => by ring
  rw [t1, t2, t3, t4, div_div_div_cancel_right₀ hN, mul_div_mul_left _ _ hc.ne', mul_div_mul_left _ _ ha]

section ImpRC

/-- Without trimming, `aipw_did_rc_imp1` on bootstrap weights is the estimator's formula on a multiple of them. -/
lemma aipwRC1_trad [Nonempty ι] {d post : ι → Bool} {ps oPre oPost y b : ι → K} {c r : K} (hc : c ≠ 0) (hb : mean b ≠ 0)
    (h : aipwRC1 d post ps (fun i => postK post i * oPost i + (1 - postK post i) * oPre i) y b = some r) :
    tradRC d (fun _ => true) post ps oPre oPost y (fun i => c * b i) = r := by
  obtain ⟨a, ha, hra⟩ := renorm_scale b hb
  unfold aipwRC1 at h
  simp only [hra] at h
  obtain ⟨p, q, hp, hq, rfl⟩ := sub?_eq_some h
  obtain ⟨p1, p0, h1, h0, rfl⟩ := sub?_eq_some hp
  obtain ⟨q1, q0, g1, g0, rfl⟩ := sub?_eq_some hq
  have hca : c / a ≠ 0 := div_ne_zero hc ha
  unfold tradRC
  dsimp only
  rw [wsum_hmean hca h1 (fun i => by unfold wTreatRC ind; simp; field_simp),
    wsum_hmean hca h0 (fun i => by unfold wTreatRC preK postK ind; simp; field_simp),
    wsum_hmean hca g1 (fun i => by unfold wContRC ind; simp; field_simp),
    wsum_hmean hca g0 (fun i => by unfold wContRC preK postK ind; simp; field_simp)]

lemma sub?_some (p q : K) : sub? (some p) (some q) = some (p - q) := rfl

/-- The same for `aipw_did_rc_imp2`. -/
lemma aipwRC2_dr [Nonempty ι] {d post : ι → Bool} {ps oT1 oT0 oC1 oC0 y b : ι → K} {c r : K} (hc : c ≠ 0)
    (hb : mean b ≠ 0) (h : aipwRC2 d post ps oT1 oT0 oC1 oC0 y b = some r) :
    drRC d (fun _ => true) post ps oC0 oC1 oT0 oT1 y (fun i => c * b i) = r := by
  obtain ⟨a, ha, hra⟩ := renorm_scale b hb
  unfold aipwRC2 at h
  simp only [hra] at h
  rw [Option.bind_eq_some_iff] at h
  obtain ⟨m, hm, h⟩ := h
  rw [Option.map_eq_some_iff] at h
  obtain ⟨e, he, rfl⟩ := h
  obtain ⟨p, q, hp, hq, rfl⟩ := sub?_eq_some hm
  obtain ⟨p1, p0, h1, h0, rfl⟩ := sub?_eq_some hp
  obtain ⟨q1, q0, g1, g0, rfl⟩ := sub?_eq_some hq
  obtain ⟨e1, e0, he1, he0, rfl⟩ := sub?_eq_some he
  obtain ⟨f1, f2, hf1, hf2, rfl⟩ := sub?_eq_some he1
  obtain ⟨f3, f4, hf3, hf4, rfl⟩ := sub?_eq_some he0
  have hca : c / a ≠ 0 := div_ne_zero hc ha
  have hper : ∀ (u : ι → K) (o1 o0 : ι → K) (b' : Bool), (∀ i, post i ≠ b' → u i = 0) →
      hmean u (fun i => y i - (postK post i * o1 i + (1 - postK post i) * o0 i)) =
        hmean u (fun i => y i - if b' then o1 i else o0 i) := by
    intro u o1 o0 b' hu
    rw [hmean_eq_wmean, hmean_eq_wmean]
    refine wmean_congr fun i hi => ?_
    have hp : post i = b' := by by_contra hne; exact hi (hu i hne)
    cases b' <;> simp [postK, ind, hp]
  unfold drRC tradRC
  dsimp only
  rw [hper _ oC1 oC0 true (fun i hi => by unfold wTreatRC postK ind; simp [hi]),
    hper _ oC1 oC0 false (fun i hi => by unfold wTreatRC preK ind; simp at hi; simp [hi]),
    hper _ oC1 oC0 true (fun i hi => by unfold wContRC postK ind; simp [hi]),
    hper _ oC1 oC0 false (fun i hi => by unfold wContRC preK ind; simp at hi; simp [hi])]
  simp only [if_true, Bool.false_eq_true, if_false]
  rw [wsum_hmean hca h1 (fun i => by unfold wTreatRC ind; simp; field_simp),
    wsum_hmean hca h0 (fun i => by unfold wTreatRC preK postK ind; simp; field_simp),
    wsum_hmean hca g1 (fun i => by unfold wContRC ind; simp; field_simp),
    wsum_hmean hca g0 (fun i => by unfold wContRC preK postK ind; simp; field_simp),
    wsum_hmean hca hf1 (fun i => by unfold ind; simp; field_simp),
    wsum_hmean hca hf2 (fun i => by unfold ind; simp; field_simp),
    wsum_hmean hca hf3 (fun i => by unfold ind; simp; field_simp),
    wsum_hmean hca hf4 (fun i => by unfold postK ind; simp; field_simp)]
  ring

variable (ols : OLS ι κ K) (hl : ols.ScaleFree) (ipt : Logit ι κ K) (hi' : ipt.ScaleFree)
    (lo hi level : K) (y : ι → K) (post d : ι → Bool) (x : ι → κ → K) (w0 v : ι → K) (hw : GoodW w0)
    (hv : ∀ i, 0 < v i) (hchk : rcChecks d post w0 = true) (r : K)
    (hnt : NoTrim level d (clip lo hi (ipt (drawW (normalize w0) v) d x)))

include hw hv in
lemma mean_drawW_ne : mean (drawW (normalize w0) v) ≠ 0 := by
  have := (hw.draw hv).mean_pos
  have e : drawW (normalize w0) v = fun i => (1 / mean w0) * (w0 i * v i) := by
    funext i; unfold drawW normalize; ring
  rw [e, mean_smul]
  exact (mul_pos (one_div_pos.2 hw.mean_pos) this).ne'

include hl hi' hw hv hchk hnt in
/-- **C111 (improved estimator, repeated cross-sections).** While nothing is trimmed, a replication that is a number is
`drdid_imp_rc` with the weights multiplied by the draws. -/
theorem C111_imp_rc (hr : wbootIptRC1 ols ipt lo hi level y post d x (normalize w0) v = some r) :
    drdidImpRC ols ipt lo hi level y post d x (fun i => w0 i * v i) = some r := by
  obtain ⟨c, hc, hn⟩ := normalize_draw hw hv
  have := hw.nonempty
  have hb := mean_drawW_ne w0 v hw hv
  have hchk' : rcChecks d post (fun i => w0 i * v i) = true := by
    simp only [rcChecks, decide_eq_true_eq] at hchk ⊢
    exact ⟨noNeg (hw.draw hv), hchk.2⟩
  unfold drdidImpRC
  rw [if_pos hchk']
  unfold wbootIptRC1 at hr
  dsimp only at hr
  simp only [hn, hi' c hc]
  set b := drawW (normalize w0) v
  set ps := clip lo hi (ipt b d x)
  rw [hnt.all] at hr ⊢
  have hcut : cutW (fun _ => true) b = b := by funext i; simp [cutW]
  rw [hcut] at hr
  have hsc : (fun i => c * b i * (ps i / (1 - ps i))) = fun i => c * wolsW ps b false i := by
    funext i; simp [wolsW]; ring
  simp only [hsc, hl c hc]
  rw [aipwRC1_trad hc.ne' hb hr]

include hl hi' hw hv hchk hnt in
/-- **C111 (locally efficient improved estimator, repeated cross-sections).** -/
theorem C111_imp_local_rc (hr : wbootIptRC2 ols ipt lo hi level y post d x (normalize w0) v = some r) :
    drdidImpLocalRC ols ipt lo hi level y post d x (fun i => w0 i * v i) = some r := by
  obtain ⟨c, hc, hn⟩ := normalize_draw hw hv
  have := hw.nonempty
  have hb := mean_drawW_ne w0 v hw hv
  have hchk' : rcChecks d post (fun i => w0 i * v i) = true := by
    simp only [rcChecks, decide_eq_true_eq] at hchk ⊢
    exact ⟨noNeg (hw.draw hv), hchk.2⟩
  unfold drdidImpLocalRC
  rw [if_pos hchk']
  unfold wbootIptRC2 at hr
  dsimp only at hr
  simp only [hn, hi' c hc]
  set b := drawW (normalize w0) v
  set ps := clip lo hi (ipt b d x)
  rw [hnt.all] at hr ⊢
  have hcut : cutW (fun _ => true) b = b := by funext i; simp [cutW]
  rw [hcut] at hr
  have hsc : (fun i => c * b i * (ps i / (1 - ps i))) = fun i => c * wolsW ps b false i := by
    funext i; simp [wolsW]; ring
  have hst : (fun i => c * b i) = fun i => c * wolsW ps b true i := by
    funext i; simp [wolsW]
  have key := aipwRC2_dr hc.ne' hb hr
  simp only [hsc, hl c hc]
  congr 1

end ImpRC

/-! ## Horvitz-Thompson IPW, repeated cross-sections -/

/-- **C113 (what holds).** When nothing is trimmed and the bootstrap weights happen to average to exactly one, a replication
is `ipw_did_rc` with the weights multiplied by the draws. -/
theorem C113_ipw_rc (logit : Logit ι κ K) (hl : logit.ScaleFree) (lo hi level : K) (y : ι → K)
    (post d : ι → Bool) (x : ι → κ → K) (w0 v : ι → K) (hw : GoodW w0) (hv : ∀ i, 0 < v i)
    (hchk : rcChecks d post w0 = true)
    (hnt : NoTrim level d (clip lo hi (logit (drawW (normalize w0) v) d x)))
    (hone : mean (drawW (normalize w0) v) = 1) :
    wbootIpwRC logit lo hi level y post d x (normalize w0) v =
      ipwDidRC logit lo hi level y post d x (fun i => w0 i * v i) := by
  obtain ⟨c, hc, hn⟩ := normalize_draw hw hv
  have := hw.nonempty
  have hchk' : rcChecks d post (fun i => w0 i * v i) = true := by
    simp only [rcChecks, decide_eq_true_eq] at hchk ⊢
    exact ⟨noNeg (hw.draw hv), hchk.2⟩
  have hc1 : c = 1 := by
    have h1 : mean (normalize (fun i => w0 i * v i)) = 1 := by
      have h2 := (hw.draw hv).mean_pos.ne'
      have e : normalize (fun i => w0 i * v i) = fun i => (1 / mean (fun i => w0 i * v i)) * (w0 i * v i) := by
        funext i; unfold normalize; ring
      rw [e, mean_smul]; field_simp
    rw [hn, mean_smul, hone, mul_one] at h1
    exact h1
  subst hc1
  simp only [one_mul] at hn
  unfold wbootIpwRC ipwDidRC ipwRcVal
  rw [if_pos hchk']
  simp only [hn]
  set b := drawW (normalize w0) v
  set ps := clip lo hi (logit b d x)
  rw [hnt.all]
  have hi1 : ∀ i : ι, (ind (fun _ => true) i : K) = 1 := fun i => by simp [ind]
  simp only [hi1, mul_one, one_mul]
  set lam := mean (fun i => b i * postK post i) with hlam
  have hl' : mean (fun i => b i * (1 - postK post i)) = 1 - lam := by
    have e : mean (fun i => b i * (1 - postK post i)) = mean b - mean (fun i => b i * postK post i) := by
      unfold mean
      rw [← sub_div, ← Finset.sum_sub_distrib]
      congr 1
      exact Finset.sum_congr rfl fun i _ => by ring
    rw [e, hone]
  rw [hl']
  by_cases h1 : lam = 0 ∨ lam = 1
  · simp [h1]
  · rw [if_neg h1]
    by_cases h2 : mean (fun i => b i * ind d i) = 0
    · simp [h2]
    · rw [if_neg h2, if_neg h2, if_neg h1]
      push Not at h1
      have ha : lam ≠ 0 := h1.1
      have hb : 1 - lam ≠ 0 := sub_ne_zero.2 h1.2.symm
      congr 1
      set pi := mean (fun i => b i * ind d i) with hpi
      unfold mean
      rw [← sub_div, ← sub_div, ← sub_div, div_div, mul_comm _ pi, ← div_div]
      congr 1
      rw [← Finset.sum_sub_distrib, ← Finset.sum_sub_distrib, ← Finset.sum_sub_distrib, Finset.sum_div]
      refine Finset.sum_congr rfl fun i _ => ?_
      cases hp : post i <;> cases hd : d i <;> simp [postK, ind, hp, hd] <;> field_simp

end Verif.DR
