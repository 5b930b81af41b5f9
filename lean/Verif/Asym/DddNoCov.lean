import Verif.Asym.Ddd
import Verif.Asym.NoCov

set_option linter.unusedSectionVars false
set_option linter.unusedSimpArgs false

/-!
# C278: two-period triple differences without covariates, by any method, in large samples
-/

namespace Verif.Asym

open MeasureTheory ProbabilityTheory Filter Topology Verif.Honest Verif.DR Verif.Triple

variable {Ω 𝓧 : Type*} [MeasurableSpace Ω] [MeasurableSpace 𝓧]

/-! ## Specification -/

/-- Mean change of the outcome in subgroup `c`. -/
noncomputable def sgMean (P : Measure Ω) (X : ℕ → Ω → 𝓧) (sg : 𝓧 → ℕ) (w dy : 𝓧 → ℝ) (c : ℕ) : ℝ :=
  (pop P X fun z => w z * inSg sg c z * dy z) / pop P X fun z => w z * inSg sg c z

/-- The population without covariates: weight in every subgroup, finite second moments, triple-difference parallel trends, and in each comparison the treated share is below
the trimming level. -/
structure PlainTriple (P : Measure Ω) (X : ℕ → Ω → 𝓧) (sg : 𝓧 → ℕ) (y1 y0 u1 w : 𝓧 → ℝ) (level : ℝ) : Prop where
  subgroup : ∀ z, sg z ∈ [1, 2, 3, 4]
  nonneg : ∀ z, 0 ≤ w z
  measSg : Measurable sg
  w1 : SqInt P X w
  wy : SqInt P X fun z => w z * (y1 z - y0 z)
  int0 : Integrable (fun ω => w (X 0 ω) * inSg sg 4 (X 0 ω) * (u1 (X 0 ω) - y0 (X 0 ω))) P
  mass : ∀ c ∈ [1, 2, 3, 4], 0 < pop P X fun z => w z * inSg sg c z
  trends : sgMean P X sg w (fun z => u1 z - y0 z) 4 =
    sgMean P X sg w (fun z => y1 z - y0 z) 3 + sgMean P X sg w (fun z => y1 z - y0 z) 2 - sgMean P X sg w (fun z => y1 z - y0 z) 1
  share : ∀ c ∈ [1, 2, 3], (pop P X fun z => w z * inSg sg 4 z) < level * ((pop P X fun z => w z * inSg sg 4 z) + pop P X fun z => w z * inSg sg c z)

/-- Influence of a unit on the mean change of subgroup `c`. -/
noncomputable def sgInfluence (P : Measure Ω) (X : ℕ → Ω → 𝓧) (sg : 𝓧 → ℕ) (w dy : 𝓧 → ℝ) (c : ℕ) (z : 𝓧) : ℝ :=
  w z * inSg sg c z * (dy z - sgMean P X sg w dy c) / pop P X fun z => w z * inSg sg c z

/-- Influence of a unit on the difference of the four means. -/
noncomputable def plainTriple (P : Measure Ω) (X : ℕ → Ω → 𝓧) (sg : 𝓧 → ℕ) (w dy : 𝓧 → ℝ) (z : 𝓧) : ℝ :=
  sgInfluence P X sg w dy 4 z - sgInfluence P X sg w dy 3 z - sgInfluence P X sg w dy 2 z + sgInfluence P X sg w dy 1 z

/-! ## Model -/

/-- Fits without covariates: least squares by the Gram matrix, the treated share as score (the logit on a constant), any information matrix, `nuisance.py:436-539,569-654`. -/
noncomputable def plainFits {ι : Type*} [Fintype ι] (sg : ι → ℕ) (hess : ∀ c, (Sub sg c → ℝ) → Unit → Unit → ℝ) : Triple.Fits sg Unit ℝ :=
  ⟨fun _ => Ident.gramOLS, fun _ => shareLogit, hess, minv⟩

/-- Estimate and influence function of `ddd_panel` without covariates on the first `n` units, `ddd_panel.py:190-224`, for any `est_method`; `none` stands for an error. -/
noncomputable def plainReport (hess : ∀ (n : ℕ) (sg : Fin n → ℕ) (c : ℕ), (Sub sg c → ℝ) → Unit → Unit → ℝ) (m : Est) (hi level : ℝ) (sg : 𝓧 → ℕ) (y1 y0 w : 𝓧 → ℝ)
    (X : ℕ → Ω → 𝓧) (n : ℕ) (ω : Ω) : Option (ℝ × (Fin n → ℝ)) :=
  match dddPanel (plainFits (fun i : Fin n => sg (X i ω)) (hess n _)) m hi level (fun i => y1 (X i ω)) (fun i => y0 (X i ω)) ones (fun i => w (X i ω)) with
  | .ok r => some r
  | .error _ => none

/-! ## One comparison -/

section
variable {ι : Type*} [Fintype ι] {sg : ι → ℕ} {c : ℕ}

/-- Whatever the constant prediction, the score and the matrices: the comparison is the difference of the two weighted means, with their influence function. -/
theorem comp_plain (inv : (Unit → Unit → ℝ) → Unit → Unit → ℝ) (m : Est) (n : Nuis (Sub sg c) Unit ℝ) (W dy : ι → ℝ) (vt vc : Sub sg c → ℝ) (r o : ℝ) (hr : r ≠ 0)
    (ht : Triple.wTreat sg c n W = vt) (hc : Triple.wControl m sg c n W = fun i => r * vc i) (ho : ∀ i, n.out i = o)
    (h1 : DR.mean vt ≠ 0) (h0 : DR.mean vc ≠ 0) :
    compDid inv m sg c n W ones dy = .ok (wmean vt (fun i => dy i.1) - wmean vc (fun i => dy i.1),
      scatter sg c fun i => vt i * (dy i.1 - wmean vt fun i => dy i.1) / DR.mean vt - vc i * (dy i.1 - wmean vc fun i => dy i.1) / DR.mean vc) := by
  have hmc : DR.mean (fun i => r * vc i) = r * DR.mean vc := DR.NoCov.mean_mul r vc
  have hc0 : DR.mean (fun i => r * vc i) ≠ 0 := by rw [hmc]; exact mul_ne_zero hr h0
  have e1 : (DR.mean fun i => vt i * (dy i.1 - o)) / DR.mean vt = (wmean vt fun i => dy i.1) - o := DR.NoCov.wmean_sub_const h1 (fun i : Sub sg c => dy i.1) o
  have e0 : (DR.mean fun i => r * vc i * (dy i.1 - o)) / DR.mean (fun i => r * vc i) = (wmean vc fun i => dy i.1) - o := by
    have := DR.NoCov.wmean_sub_const hc0 (fun i : Sub sg c => dy i.1) o
    rw [DR.NoCov.wmean_scale hr vc fun i => dy i.1] at this
    exact this
  unfold compDid
  rw [ht, hc, if_neg h1, if_neg hc0]
  congr 2
  · unfold compAtt
    rw [ht, hc]
    simp only [ho]
    rw [e1, e0]
    ring
  · congr 1
    funext i
    have ez : (DR.mean fun i : Sub sg c => r * vc i * (dy i.1 - o - ((wmean vc fun i => dy i.1) - o))) = 0 := by
      have := DR.NoCov.mean_res h0 fun i : Sub sg c => dy i.1
      have h2 : (fun i : Sub sg c => r * vc i * (dy i.1 - o - ((wmean vc fun i => dy i.1) - o))) = fun i => r * (vc i * (dy i.1 - wmean vc fun i => dy i.1)) := by
        funext i; ring
      rw [h2, DR.NoCov.mean_mul, this, mul_zero]
    unfold compIF
    dsimp only
    rw [ht, hc]
    simp only [ho]
    rw [e1, e0]
    simp only [DR.NoCov.dot_unit, ones, ez, mul_zero, ite_self, add_zero, mul_one, Finset.univ_unique, PUnit.default_eq_unit, Finset.sum_singleton]
    rw [hmc]
    generalize DR.mean vt = A at *
    generalize DR.mean vc = B at *
    by_cases hm : m = .ipw
    · simp only [hm, if_true]
      field_simp
      ring
    · simp only [hm, if_false]
      field_simp
      ring

end

section
variable {ι : Type*} [Fintype ι] {sg : ι → ℕ} {c : ℕ}

/-- In one comparison all methods return what the regression on a constant returns. -/
theorem comp_any (hess : ∀ c, (Sub sg c → ℝ) → Unit → Unit → ℝ) (m : Est) (hi level : ℝ) (hi0 : 0 < hi) (hi1 : hi < 1) (hc : c ≠ 4) (W dy : ι → ℝ)
    (h1 : 0 < DR.mean fun i => onSub sg c W i * dn (pa4 sg c) i) (h0 : 0 < DR.mean fun i => onSub sg c W i * (1 - dn (pa4 sg c) i))
    (hs : treatedShare (onSub sg c W) (pa4 sg c) < level) (hs0 : 0 < treatedShare (onSub sg c W) (pa4 sg c)) :
    compDid (plainFits sg hess).inv m sg c (nuis (plainFits sg hess) m hi level c W ones dy) W ones dy =
      compDid (regFits sg).inv .reg sg c (nuis (regFits sg) .reg hi level c W ones dy) W ones dy := by
  have hfit : ∀ β : Unit → ℝ, ∀ i : Sub sg c, fitted (onSub sg c ones) β i = β () := by
    intro β i
    simp [fitted, onSub, ones]
  obtain ⟨p, hp⟩ : ∃ p, p = min (treatedShare (onSub sg c W) (pa4 sg c)) hi := ⟨_, rfl⟩
  have hp0 : 0 < p := by rw [hp]; exact lt_min hs0 hi0
  have hp1 : p < 1 := by rw [hp]; exact (min_le_right _ _).trans_lt hi1
  have hpl : p < level := by rw [hp]; exact (min_le_left _ _).trans_lt hs
  rw [comp_plain _ .reg (nuis (regFits sg) .reg hi level c W ones dy) W dy _ (fun i => onSub sg c W i * (1 - dn (pa4 sg c) i)) 1
    (Ident.gramOLS (onSub sg c W) (paComp sg c) (onSub sg c ones) (onSub sg c dy) ()) one_ne_zero (comp_wt hi level c hc W ones dy)
    (by rw [comp_wc hi level c hc]; simp only [one_mul]) (fun i => by unfold nuis; simp only [reduceCtorEq, if_false]; exact hfit _ i) h1.ne' h0.ne']
  by_cases hm : m = .reg
  · subst hm
    exact comp_plain _ .reg _ W dy _ _ 1 (Ident.gramOLS (onSub sg c W) (paComp sg c) (onSub sg c ones) (onSub sg c dy) ()) one_ne_zero
      (by funext i; unfold Triple.wTreat nuis ind dn onSub; simp)
      (by funext i; unfold Triple.wControl; rw [if_pos rfl, comp_ind c hc]; unfold nuis ind onSub; simp)
      (fun i => by unfold nuis; simp only [reduceCtorEq, if_false]; exact hfit _ i) h1.ne' h0.ne'
  · have hps : ∀ i, (nuis (plainFits sg hess) m hi level c W ones dy).ps i = p := by
      intro i
      unfold nuis
      simp only [hm, if_false]
      rw [hp]
      rfl
    have hkeep : ∀ i, (nuis (plainFits sg hess) m hi level c W ones dy).keep i = true := by
      intro i
      have : min ((plainFits sg hess).logit c (onSub sg c W) (pa4 sg c) (onSub sg c ones) i) hi < level := by
        have h2 : min ((plainFits sg hess).logit c (onSub sg c W) (pa4 sg c) (onSub sg c ones) i) hi = p := by rw [hp]; rfl
        rw [h2]; exact hpl
      unfold nuis
      simp only [hm, if_false]
      split_ifs
      · rfl
      · exact decide_eq_true this
    refine comp_plain _ m _ W dy _ _ (p / (1 - p))
      (if m = .ipw then 0 else Ident.gramOLS (onSub sg c W) (paComp sg c) (onSub sg c ones) (onSub sg c dy) ()) (div_ne_zero hp0.ne' (by linarith)) ?_ ?_ ?_ h1.ne' h0.ne'
    · funext i
      unfold Triple.wTreat
      simp [ind, hkeep i, dn, onSub]
    · funext i
      unfold Triple.wControl
      rw [if_neg hm, hps i, comp_ind c hc]
      simp only [ind, hkeep i, if_true, one_mul, onSub]
      ring
    · intro i
      unfold nuis
      by_cases h : m = .ipw
      · simp only [h, if_true]
      · simp only [h, if_false]
        exact hfit _ i

end

/-! ## Samples -/

/-- Samples in which, in each comparison, both subgroups have weight and the treated share is below the trimming level. -/
def pGood (sg : 𝓧 → ℕ) (w : 𝓧 → ℝ) (level : ℝ) (X : ℕ → Ω → 𝓧) (n : ℕ) : Set Ω :=
  ⋂ k : Fin 3, tGood (fun z => w z * inU sg (grp k) z) (is4 sg) level X n

theorem plain_eq {hess : ∀ (n : ℕ) (sg : Fin n → ℕ) (c : ℕ), (Sub sg c → ℝ) → Unit → Unit → ℝ} {m : Est} {hi level : ℝ} (hi0 : 0 < hi) (hi1 : hi < 1) {sg : 𝓧 → ℕ}
    {y1 y0 w : 𝓧 → ℝ} {X : ℕ → Ω → 𝓧} {n : ℕ} {ω : Ω} (hw : ∀ z, 0 ≤ w z) (h : ω ∈ pGood sg w level X n) :
    plainReport hess m hi level sg y1 y0 w X n ω = dddReport hi level sg y1 y0 w (fun _ => ones ()) X n ω := by
  have hg := fun k => Set.mem_iInter.1 h k
  have hn : 0 < n := by
    rcases Nat.eq_zero_or_pos n with rfl | h'
    · have := (hg 0).1
      simp [avg] at this
    · exact h'
  have hn' : (0 : ℝ) < n := by exact_mod_cast hn
  have : Nonempty (Fin n) := ⟨⟨0, hn⟩⟩
  have hcard : (Fintype.card (Fin n) : ℝ) = n := by simp
  have hm0 : 0 < DR.mean fun i : Fin n => w (X i ω) := by
    refine lt_of_le_of_ne (div_nonneg (Finset.sum_nonneg fun i _ => hw _) (Nat.cast_nonneg _)) fun hz => ?_
    have h1 := (hg 0).1
    unfold DR.mean at hz
    have hz' := (div_eq_zero_iff.1 hz.symm).resolve_right (Nat.cast_ne_zero.2 Fintype.card_ne_zero)
    have hz2 := fun i => (Finset.sum_eq_zero_iff_of_nonneg fun i _ => hw _).1 hz' i (Finset.mem_univ i)
    rw [← mean_eq, DR.mean, Finset.sum_eq_zero fun i _ => ?_, zero_div] at h1
    · exact absurd h1 (lt_irrefl _)
    · have := hz2 i
      simp [this]
  have key : ∀ k : Fin 3, compDid (plainFits (fun i : Fin n => sg (X i ω)) (hess n _)).inv m (fun i : Fin n => sg (X i ω)) (grp k)
      (nuis (plainFits (fun i : Fin n => sg (X i ω)) (hess n _)) m hi level (grp k) (DR.normalize fun i => w (X i ω)) ones fun i => y1 (X i ω) - y0 (X i ω))
      (DR.normalize fun i => w (X i ω)) ones (fun i => y1 (X i ω) - y0 (X i ω)) =
      compDid (regFits (fun i : Fin n => sg (X i ω))).inv .reg (fun i : Fin n => sg (X i ω)) (grp k)
      (nuis (regFits (fun i : Fin n => sg (X i ω))) .reg hi level (grp k) (DR.normalize fun i => w (X i ω)) ones fun i => y1 (X i ω) - y0 (X i ω))
      (DR.normalize fun i => w (X i ω)) ones (fun i => y1 (X i ω) - y0 (X i ω)) := by
    intro k
    obtain ⟨h1, h2, h3⟩ := hg k
    have hne4 : grp k ≠ 4 := by rintro h; have := grp_mem k; rw [h] at this; simp at this
    obtain ⟨S, hS⟩ : ∃ S, S = fun i : Fin n => sg (X i ω) := ⟨_, rfl⟩
    have hcs : Nonempty (Sub S (grp k)) := by
      by_contra hcon
      rw [not_nonempty_iff] at hcon
      rw [← mean_eq, DR.mean, Finset.sum_eq_zero fun i _ => ?_, zero_div] at h1
      · exact absurd h1 (lt_irrefl _)
      · have : ¬ (sg (X i ω) = 4 ∨ sg (X i ω) = grp k) := fun hc => hcon.false ⟨i, by rw [hS]; exact hc⟩
        simp [inU, this]
    have hq : 0 < (Fintype.card (Fin n) : ℝ) / (Fintype.card (Sub S (grp k)) : ℝ) := by
      refine div_pos ?_ ?_ <;> exact_mod_cast Fintype.card_pos
    obtain ⟨q, hqe⟩ : ∃ q, q = (Fintype.card (Fin n) : ℝ) / (Fintype.card (Sub S (grp k)) : ℝ) := ⟨_, rfl⟩
    rw [← hqe] at hq
    have hmean : ∀ f : 𝓧 → ℝ, (DR.mean fun i : Sub S (grp k) => onSub S (grp k) (DR.normalize fun i : Fin n => w (X i ω)) i * f (X i.1 ω)) =
        q * (DR.mean fun i : Fin n => w (X i ω))⁻¹ * avg X (fun z => w z * inU sg (grp k) z * f z) n ω := by
      intro f
      have := sub_mean S (grp k) fun i : Fin n => DR.normalize (fun i : Fin n => w (X i ω)) i * f (X i ω)
      rw [← hqe] at this
      refine this.trans ?_
      rw [mul_assoc, ← mean_eq]
      congr 1
      rw [← mean_smul]
      congr 1
      funext i
      rw [norm_eq]
      have : inU S (grp k) i = inU sg (grp k) (X i ω) := by rw [hS]; rfl
      rw [this]
      ring
    have hr : 0 < q * (DR.mean fun i : Fin n => w (X i ω))⁻¹ := mul_pos hq (inv_pos.2 hm0)
    have e1 := hmean (dn (is4 sg))
    have e0 := hmean fun z => 1 - dn (is4 sg) z
    have eW := hmean fun _ => 1
    have hdn : ∀ i : Sub S (grp k), dn (pa4 S (grp k)) i = dn (is4 sg) (X i.1 ω) := fun i => by
      have : S i.1 = sg (X i.1 ω) := congrFun hS i.1
      unfold dn pa4 is4
      simp only [this]
    simp only [mul_one] at eW
    have p1 : 0 < DR.mean fun i => onSub S (grp k) (DR.normalize fun i : Fin n => w (X i ω)) i * dn (pa4 S (grp k)) i := by
      simp only [hdn]
      rw [e1]
      exact mul_pos hr h1
    have p0 : 0 < DR.mean fun i => onSub S (grp k) (DR.normalize fun i : Fin n => w (X i ω)) i * (1 - dn (pa4 S (grp k)) i) := by
      simp only [hdn]
      rw [e0]
      exact mul_pos hr h2
    have hcs' : (Fintype.card (Sub S (grp k)) : ℝ) ≠ 0 := Nat.cast_ne_zero.2 Fintype.card_ne_zero
    have hsh : treatedShare (onSub S (grp k) (DR.normalize fun i : Fin n => w (X i ω))) (pa4 S (grp k)) =
        avg X (fun z => w z * inU sg (grp k) z * dn (is4 sg) z) n ω / avg X (fun z => w z * inU sg (grp k) z) n ω := by
      have e2 : treatedShare (onSub S (grp k) (DR.normalize fun i : Fin n => w (X i ω))) (pa4 S (grp k)) =
          (DR.mean fun i => onSub S (grp k) (DR.normalize fun i : Fin n => w (X i ω)) i * dn (pa4 S (grp k)) i) /
            DR.mean fun i => onSub S (grp k) (DR.normalize fun i : Fin n => w (X i ω)) i := by
        unfold treatedShare DR.mean
        rw [div_div_div_cancel_right₀ hcs']
        congr 1
        rw [Finset.sum_filter]
        refine Finset.sum_congr rfl fun i _ => ?_
        unfold dn
        cases hb : pa4 S (grp k) i <;> simp [hb]
      rw [e2]
      simp only [hdn]
      rw [e1, eW, mul_div_mul_left _ _ hr.ne']
    have hpos : 0 < avg X (fun z => w z * inU sg (grp k) z) n ω := by
      have hsum : avg X (fun z => w z * inU sg (grp k) z) n ω = avg X (fun z => w z * inU sg (grp k) z * dn (is4 sg) z) n ω +
          avg X (fun z => w z * inU sg (grp k) z * (1 - dn (is4 sg) z)) n ω := by
        unfold avg
        rw [← add_div, ← Finset.sum_add_distrib]
        congr 1
        exact Finset.sum_congr rfl fun i _ => by ring
      rw [hsum]
      exact add_pos h1 h2
    subst hS
    exact comp_any (hess n _) m hi level hi0 hi1 hne4 (DR.normalize fun i : Fin n => w (X i ω)) (fun i => y1 (X i ω) - y0 (X i ω)) p1 p0
      (by rw [hsh, div_lt_iff₀ hpos]; exact h3) (by rw [hsh]; exact div_pos h1 hpos)
  have k3 := key 0
  have k2 := key 1
  have k1 := key 2
  rw [grp0] at k3
  rw [grp1] at k2
  rw [grp2] at k1
  unfold plainReport dddReport dddPanel allDid
  rw [k3, k2, k1]
  rfl

/-- **C278 (methods agree).**  In every sample in which each comparison has weight in both subgroups and a treated share below the trimming level, the three methods report
the same estimate, influence function and standard error, whatever information matrix the score comes with. -/
theorem C278_methods_agree (hess hess' : ∀ (n : ℕ) (sg : Fin n → ℕ) (c : ℕ), (Sub sg c → ℝ) → Unit → Unit → ℝ) (m m' : Est) {hi level : ℝ} (hi0 : 0 < hi) (hi1 : hi < 1)
    {sg : 𝓧 → ℕ} {y1 y0 w : 𝓧 → ℝ} {X : ℕ → Ω → 𝓧} {n : ℕ} {ω : Ω} (hw : ∀ z, 0 ≤ w z)
    (h : ∀ c ∈ [1, 2, 3], 0 < ∑ i : Fin n, w (X i ω) * inSg sg c (X i ω) ∧ 0 < ∑ i : Fin n, w (X i ω) * inSg sg 4 (X i ω) ∧
      (∑ i : Fin n, w (X i ω) * inSg sg 4 (X i ω)) <
        level * ((∑ i : Fin n, w (X i ω) * inSg sg 4 (X i ω)) + ∑ i : Fin n, w (X i ω) * inSg sg c (X i ω))) :
    plainReport hess m hi level sg y1 y0 w X n ω = plainReport hess' m' hi level sg y1 y0 w X n ω := by
  have hg : ω ∈ pGood sg w level X n := by
    refine Set.mem_iInter.2 fun k => ?_
    obtain ⟨h1, h2, h3⟩ := h (grp k) (grp_mem k)
    have hne4 : grp k ≠ 4 := by rintro h; have := grp_mem k; rw [h] at this; simp at this
    have hn : 0 < n := by
      rcases Nat.eq_zero_or_pos n with rfl | h'
      · simp at h1
      · exact h'
    have hn' : (0 : ℝ) < n := by exact_mod_cast hn
    have e4 : avg X (fun z => w z * inU sg (grp k) z * dn (is4 sg) z) n ω = (∑ i : Fin n, w (X i ω) * inSg sg 4 (X i ω)) / n := by
      simp only [mul_assoc, u_treated]
      unfold avg
      rw [Finset.sum_range]
    have ec : avg X (fun z => w z * inU sg (grp k) z * (1 - dn (is4 sg) z)) n ω = (∑ i : Fin n, w (X i ω) * inSg sg (grp k) (X i ω)) / n := by
      simp only [mul_assoc, u_control hne4]
      unfold avg
      rw [Finset.sum_range]
    have eW : avg X (fun z => w z * inU sg (grp k) z) n ω = ((∑ i : Fin n, w (X i ω) * inSg sg 4 (X i ω)) + ∑ i : Fin n, w (X i ω) * inSg sg (grp k) (X i ω)) / n := by
      unfold avg
      rw [Finset.sum_range, ← Finset.sum_add_distrib]
      congr 1
      refine Finset.sum_congr rfl fun i _ => ?_
      rw [← u_treated (grp k), ← u_control hne4]
      ring
    refine ⟨?_, ?_, ?_⟩
    · rw [e4]; exact div_pos h2 hn'
    · rw [ec]; exact div_pos h1 hn'
    · rw [e4, eW, ← mul_div_assoc]
      exact div_lt_div_of_pos_right h3 hn'
  rw [plain_eq hi0 hi1 hw hg, plain_eq hi0 hi1 hw hg]

/-- One unit of each subgroup. -/
example : ∀ c ∈ [1, 2, 3], 0 < ∑ i : Fin 4, (1 : ℝ) * inSg (fun z : ℕ => z + 1) c ((i : ℕ)) ∧ 0 < ∑ i : Fin 4, (1 : ℝ) * inSg (fun z : ℕ => z + 1) 4 ((i : ℕ)) ∧
    (∑ i : Fin 4, (1 : ℝ) * inSg (fun z : ℕ => z + 1) 4 ((i : ℕ))) <
      995 / 1000 * ((∑ i : Fin 4, (1 : ℝ) * inSg (fun z : ℕ => z + 1) 4 ((i : ℕ))) + ∑ i : Fin 4, (1 : ℝ) * inSg (fun z : ℕ => z + 1) c ((i : ℕ))) := by
  intro c hc
  simp only [List.mem_cons, List.not_mem_nil, or_false] at hc
  rcases hc with rfl | rfl | rfl <;> simp only [Fin.sum_univ_four, inSg] <;> norm_num

/-! ## The population -/

section
variable {P : Measure Ω} [IsProbabilityMeasure P] {X : ℕ → Ω → 𝓧} (hX : Sampling P X) {sg : 𝓧 → ℕ} {y1 y0 u1 w : 𝓧 → ℝ} {level : ℝ}
  (hC : PlainTriple P X sg y1 y0 u1 w level)
include hX hC

theorem sg_meas (c : ℕ) : Measurable (inSg sg c) :=
  Measurable.ite (hC.measSg (MeasurableSet.of_discrete (s := {k : ℕ | k = c}))) measurable_const measurable_const

theorem sg_sq {f : 𝓧 → ℝ} (hf : SqInt P X f) (c : ℕ) : SqInt P X fun z => f z * inSg sg c z :=
  hf.mul_le (hX.aemeas 0) (sg_meas hX hC c) fun z => by unfold inSg; split_ifs <;> norm_num

theorem sg_int (c : ℕ) : Integrable (fun ω => w (X 0 ω) * inSg sg c (X 0 ω)) P := (sg_sq hX hC hC.w1 c).2.integrable (by norm_num)

theorem sg_inty (c : ℕ) : Integrable (fun ω => w (X 0 ω) * inSg sg c (X 0 ω) * (y1 (X 0 ω) - y0 (X 0 ω))) P := by
  have := (sg_sq hX hC hC.wy c).2.integrable (by norm_num)
  refine this.congr (Eventually.of_forall fun ω => ?_)
  dsimp only
  ring

/-- A constant subtracted inside a mean. -/
theorem pop_shift {f : 𝓧 → ℝ} {c : ℕ} (hf : Integrable (fun ω => w (X 0 ω) * inSg sg c (X 0 ω) * f (X 0 ω)) P) (b : ℝ) :
    (pop P X fun z => w z * inSg sg c z * (f z - b)) = (pop P X fun z => w z * inSg sg c z * f z) - b * pop P X fun z => w z * inSg sg c z := by
  unfold pop
  rw [← integral_const_mul, ← integral_sub hf ((sg_int hX hC c).const_mul b)]
  congr 1
  funext ω
  ring

theorem plain_triple : TripleOK P X sg y1 y0 u1 w (fun _ => ones ()) fun c _ => sgMean P X sg w (fun z => y1 z - y0 z) c := by
  have hm : ∀ c ∈ [1, 2, 3], 0 < pop P X fun z => w z * inSg sg c z := fun c hc => hC.mass c (by
    simp only [List.mem_cons, List.not_mem_nil, or_false] at hc ⊢
    omega)
  have h4 := hC.mass 4 (by simp)
  refine ⟨hC.subgroup, hC.nonneg, ⟨(), fun _ => rfl⟩, hC.measSg, fun _ => measurable_const, hC.w1, hC.wy, fun _ => ?_, fun _ => ?_, fun _ _ => ?_, h4, fun c hc => ?_,
    fun c hc k => ?_, ?_, hC.int0⟩
  · simpa [ones] using hC.w1
  · simpa [ones] using hC.wy
  · simpa [ones] using hC.w1
  · simp only [ones, mul_one, Matrix.det_unique, Matrix.of_apply]
    exact (hm c hc).ne'
  · simp only [ones, mul_one, one_mul, Finset.univ_unique, PUnit.default_eq_unit, Finset.sum_singleton]
    rw [pop_shift hX hC (sg_inty hX hC c), sgMean, div_mul_cancel₀ _ (hm c hc).ne', sub_self]
  · simp only [ones, mul_one, one_mul, Finset.univ_unique, PUnit.default_eq_unit, Finset.sum_singleton]
    rw [← hC.trends, pop_shift hX hC hC.int0, sgMean, div_mul_cancel₀ _ h4.ne', sub_self]

/-- **C278 (influence function).**  What a unit contributes to the limiting variance is its influence on the four means. -/
theorem C278_influence (z : 𝓧) : tripleInfluence P X sg y1 y0 w (fun _ => ones ()) (fun c _ => sgMean P X sg w (fun z => y1 z - y0 z) c) z =
    plainTriple P X sg w (fun z => y1 z - y0 z) z := by
  have h4 := (hC.mass 4 (by simp)).ne'
  have key : ∀ c ∈ [1, 2, 3], compInfluence P X sg y1 y0 w (fun _ => ones ()) c (fun _ => sgMean P X sg w (fun z => y1 z - y0 z) c) z =
      sgInfluence P X sg w (fun z => y1 z - y0 z) 4 z - sgInfluence P X sg w (fun z => y1 z - y0 z) c z := by
    intro c hc
    have hc0 : (pop P X fun z => w z * inSg sg c z) ≠ 0 := (hC.mass c (by
      simp only [List.mem_cons, List.not_mem_nil, or_false] at hc ⊢
      omega)).ne'
    have hmean : compMean P X sg y1 y0 w (fun _ => ones ()) (fun _ => sgMean P X sg w (fun z => y1 z - y0 z) c) =
        sgMean P X sg w (fun z => y1 z - y0 z) 4 - sgMean P X sg w (fun z => y1 z - y0 z) c := by
      unfold compMean
      simp only [ones, one_mul, Finset.univ_unique, PUnit.default_eq_unit, Finset.sum_singleton]
      rw [pop_shift hX hC (sg_inty hX hC 4), sub_div, mul_div_cancel_right₀ _ h4]
      rfl
    unfold compInfluence
    rw [hmean]
    simp only [ones, mul_one, one_mul, Finset.univ_unique, PUnit.default_eq_unit, Finset.sum_singleton]
    have hinv : minv (fun (_ _ : Unit) => pop P X fun z => w z * inSg sg c z) () () = (pop P X fun z => w z * inSg sg c z)⁻¹ := by
      unfold minv
      rw [Matrix.inv_def, Matrix.det_unique]
      simp [Matrix.adjugate_subsingleton]
    rw [hinv]
    unfold sgInfluence
    generalize (pop P X fun z => w z * inSg sg c z) = A at *
    generalize (pop P X fun z => w z * inSg sg 4 z) = B at *
    field_simp
    ring
  unfold tripleInfluence plainTriple
  rw [key 3 (by simp), key 2 (by simp), key 1 (by simp)]
  ring

theorem pGood_ok : (∀ n, NullMeasurableSet (pGood sg w level X n) P) ∧ ∀ᵐ ω ∂P, ∀ᶠ n in atTop, ω ∈ pGood sg w level X n := by
  have hT := plain_triple hX hC
  have key : ∀ k : Fin 3, (∀ n, NullMeasurableSet (tGood (fun z => w z * inU sg (grp k) z) (is4 sg) level X n) P) ∧
      ∀ᵐ ω ∂P, ∀ᶠ n in atTop, ω ∈ tGood (fun z => w z * inU sg (grp k) z) (is4 sg) level X n := by
    intro k
    have hne4 : grp k ≠ 4 := by rintro h; have := grp_mem k; rw [h] at this; simp at this
    have hm1 := hC.mass 4 (by simp)
    have hmc := hC.mass (grp k) (by have := grp_mem k; simp only [List.mem_cons, List.not_mem_nil, or_false] at this ⊢; omega)
    have e4 : (pop P X fun z => w z * inU sg (grp k) z * dn (is4 sg) z) = pop P X fun z => w z * inSg sg 4 z := by
      simp only [mul_assoc, u_treated]
    have ec : (pop P X fun z => w z * inU sg (grp k) z * (1 - dn (is4 sg) z)) = pop P X fun z => w z * inSg sg (grp k) z := by
      simp only [mul_assoc, u_control hne4]
    have eW : (pop P X fun z => w z * inU sg (grp k) z) = (pop P X fun z => w z * inSg sg 4 z) + pop P X fun z => w z * inSg sg (grp k) z := by
      unfold pop
      rw [← integral_add (sg_int hX hC 4) (sg_int hX hC (grp k))]
      congr 1
      funext ω
      rw [← u_treated (grp k), ← u_control hne4]
      ring
    have s1 := (d_moments hX hT (grp k)).w1
    have m4 := dn_measurable (d_moments hX hT (grp k)).meas_d
    have s4 : SqInt P X fun z => w z * inU sg (grp k) z * dn (is4 sg) z := s1.mul_le (hX.aemeas 0) m4 fun z => by unfold dn; split_ifs <;> norm_num
    have sc : SqInt P X fun z => w z * inU sg (grp k) z * (1 - dn (is4 sg) z) :=
      s1.mul_le (hX.aemeas 0) (measurable_const.sub m4) fun z => by unfold dn; split_ifs <;> norm_num
    constructor
    · intro n
      have h1 := avg_aemeas hX s4.1 n
      have h2 := avg_aemeas hX sc.1 n
      have h3 := avg_aemeas hX s1.1 n
      exact (nullMeasurableSet_lt aemeasurable_const h1).inter ((nullMeasurableSet_lt aemeasurable_const h2).inter (nullMeasurableSet_lt h1 (h3.const_mul level)))
    · filter_upwards [lln2 hX s4, lln2 hX sc, lln2 hX s1] with ω h1 h2 h3
      rw [e4] at h1
      rw [ec] at h2
      rw [eW] at h3
      filter_upwards [h1.eventually_const_lt hm1, h2.eventually_const_lt hmc, h1.eventually_lt (h3.const_mul level) (hC.share _ (grp_mem k))] with n a1 a2 a3
      exact ⟨a1, a2, a3⟩
  refine ⟨fun n => NullMeasurableSet.iInter fun k => (key k).1 n, ?_⟩
  have := ae_all_iff.2 fun k => (key k).2
  filter_upwards [this] with ω h
  filter_upwards [eventually_all.2 h] with n hn
  exact Set.mem_iInter.2 hn

/-- **C278 (consistency).**  Whatever the method, with probability one `ddd_panel` without covariates reports, from some sample size on, an estimate that tends to the mean
effect on subgroup 4, and `√n` times the standard error tends to the standard deviation of the influence on the four means. -/
theorem C278_limit (hess : ∀ (n : ℕ) (sg : Fin n → ℕ) (c : ℕ), (Sub sg c → ℝ) → Unit → Unit → ℝ) (m : Est) (hi : ℝ) (hi0 : 0 < hi) (hi1 : hi < 1) :
    ∀ᵐ ω ∂P, ∃ att se : ℕ → ℝ, (∀ᶠ n in atTop, ∃ psi, plainReport hess m hi level sg y1 y0 w X n ω = some (att n, psi) ∧ dddSe psi = se n) ∧
    Tendsto att atTop (𝓝 (tripleATT P X sg y1 u1 w)) ∧
    Tendsto (fun n : ℕ => Real.sqrt n * se n) atTop (𝓝 (Real.sqrt (pop P X fun z => plainTriple P X sg w (fun z => y1 z - y0 z) z ^ 2))) := by
  filter_upwards [C262_limit hX (plain_triple hX hC) hi level, (pGood_ok hX hC).2] with ω ⟨att, se, h1, h2, h3⟩ hg
  simp only [C278_influence hX hC] at h3
  refine ⟨att, se, ?_, h2, h3⟩
  filter_upwards [h1, hg] with n ⟨psi, h4, h5⟩ h6
  exact ⟨psi, (plain_eq hi0 hi1 hC.nonneg h6).trans h4, h5⟩

/-- **C278 (coverage).**  The probability that the reported interval contains the effect tends to `1 - alpha`. -/
theorem C278_coverage (hess : ∀ (n : ℕ) (sg : Fin n → ℕ) (c : ℕ), (Sub sg c → ℝ) → Unit → Unit → ℝ) (m : Est) (hi alpha : ℝ) (hi0 : 0 < hi) (hi1 : hi < 1)
    (ha0 : 0 < alpha) (ha1 : alpha < 1) (hv : 0 < pop P X fun z => plainTriple P X sg w (fun z => y1 z - y0 z) z ^ 2) :
    Tendsto (fun n => P.real {ω | ∃ att psi, plainReport hess m hi level sg y1 y0 w X n ω = some (att, psi) ∧
      (Report.dddInterval alpha att (dddSe psi)).1 ≤ tripleATT P X sg y1 u1 w ∧ tripleATT P X sg y1 u1 w ≤ (Report.dddInterval alpha att (dddSe psi)).2}) atTop
      (𝓝 (1 - alpha)) := by
  have hg := pGood_ok hX hC
  refine prob_agree _ _ _ hg.1 hg.2 (fun n ω hω => ?_) _ (C262_coverage hX (plain_triple hX hC) hi level alpha ha0 ha1 (by simpa only [C278_influence hX hC] using hv))
  rw [Set.mem_ofPred_eq, Set.mem_ofPred_eq, plain_eq hi0 hi1 hC.nonneg hω]

end

/-! ## Non-vacuity: the population of C262 with weights that do not depend on the covariate -/

def plW (z : Quads) : ℝ := qdNo z.1

theorem pl_ok : PlainTriple (draws Quads) draw qdSg qdY1 qdY0 qdU1 plW (995 / 1000) := by
  refine ⟨fun z => ?_, fun z => ?_, measurable_of_finite _, draws_sq _, draws_sq _, draws_int fun z => plW z * inSg qdSg 4 z * (qdU1 z - qdY0 z), fun c hc => ?_, ?_, fun c hc => ?_⟩
  · obtain ⟨k, p, q⟩ := z
    fin_cases k <;> simp [qdSg]
  · obtain ⟨k, p, q⟩ := z
    fin_cases k <;> simp [plW, qdNo]
  · simp only [List.mem_cons, List.not_mem_nil, or_false] at hc
    rw [qd_pop]
    rcases hc with rfl | rfl | rfl | rfl <;> simp only [qd_0, qd_1, qd_2, qd_3] <;> norm_num [plW, qd_no0, qd_no1, qd_no2, qd_no3]
  · unfold sgMean
    simp only [qd_pop, qd_0, qd_1, qd_2, qd_3]
    norm_num [plW, num, qdY1, qdU1, qdY0, qd_no0, qd_no1, qd_no2, qd_no3, qd_on0, qd_on1, qd_on2, qd_on3]
  · simp only [List.mem_cons, List.not_mem_nil, or_false] at hc
    simp only [qd_pop]
    rcases hc with rfl | rfl | rfl <;> simp only [qd_0, qd_1, qd_2, qd_3] <;> norm_num [plW, qd_no0, qd_no1, qd_no2, qd_no3]

theorem pl_att : tripleATT (draws Quads) draw qdSg qdY1 qdU1 plW = 4 := by
  unfold tripleATT
  rw [qd_pop, qd_pop]
  simp only [qd_0, qd_1, qd_2, qd_3]
  norm_num [plW, num, qdY1, qd_no0, qd_no1, qd_no2, qd_no3, qd_on0, qd_on1, qd_on2, qd_on3]

theorem pl_inf : 0 < plainTriple (draws Quads) draw qdSg plW (fun z => qdY1 z - qdY0 z) (3, true, true) := by
  unfold plainTriple sgInfluence sgMean
  simp only [qd_pop, qd_0, qd_1, qd_2, qd_3]
  norm_num [plW, num, qdY1, qdU1, qdY0, qd_no0, qd_no1, qd_no2, qd_no3, qd_on0, qd_on1, qd_on2, qd_on3]

theorem pl_var : 0 < pop (draws Quads) draw fun z => plainTriple (draws Quads) draw qdSg plW (fun z => qdY1 z - qdY0 z) z ^ 2 := by
  rw [qd_pop]
  have := pow_pos pl_inf 2
  positivity

/-- `ddd_panel` with its default method, cap and trimming level. -/
example (hess : ∀ (n : ℕ) (sg : Fin n → ℕ) (c : ℕ), (Sub sg c → ℝ) → Unit → Unit → ℝ) :
    (∀ᵐ ω ∂draws Quads, ∃ att se : ℕ → ℝ, (∀ᶠ n in atTop, ∃ psi, plainReport hess .dr (1 - 1 / 10 ^ 6) (995 / 1000) qdSg qdY1 qdY0 plW draw n ω = some (att n, psi) ∧
      dddSe psi = se n) ∧ Tendsto att atTop (𝓝 4)) ∧
    Tendsto (fun n => (draws Quads).real {ω | ∃ att psi, plainReport hess .dr (1 - 1 / 10 ^ 6) (995 / 1000) qdSg qdY1 qdY0 plW draw n ω = some (att, psi) ∧
      (Report.dddInterval 0.05 att (dddSe psi)).1 ≤ 4 ∧ 4 ≤ (Report.dddInterval 0.05 att (dddSe psi)).2}) atTop (𝓝 (1 - 0.05)) := by
  constructor
  · have h := C278_limit draws_sampling pl_ok hess .dr (1 - 1 / 10 ^ 6) (by norm_num) (by norm_num)
    rw [pl_att] at h
    filter_upwards [h] with ω ⟨att, se, h1, h2, _⟩
    exact ⟨att, se, h1, h2⟩
  · have h := C278_coverage draws_sampling pl_ok hess .dr (1 - 1 / 10 ^ 6) 0.05 (by norm_num) (by norm_num) (by norm_num) (by norm_num) pl_var
    rw [pl_att] at h
    exact h

end Verif.Asym
