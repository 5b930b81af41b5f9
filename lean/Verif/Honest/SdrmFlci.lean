import Verif.Honest.ArpUnionEx
import Mathlib.Probability.CDF

/-!
# C238: the FLCI hybrid for relative magnitudes of second differences

`compute_conditional_cs_sdrm(hybrid_flag="FLCI")` with several post-periods uses as first stage the fixed-length interval for the smoothness
bound `m_bar` (`sdrm.py:481-499`), although `m_bar` is a multiple of the largest pre-treatment second difference.
-/

set_option linter.unusedSectionVars false
set_option linter.unusedSimpArgs false

namespace Verif.Honest

open MeasureTheory ProbabilityTheory Finset Matrix Filter

variable {p q : ℕ} {Ω : Type*} [MeasurableSpace Ω]

/-! ## Model -/

/-- The first stage of every pair `(s, sign)`, `sdrm.py:481-499`, `sdrmm.py:520-539`: half-length and weights `w` of `compute_flci` (the
same for all pairs; the weights of the post-periods are `l_vec`), passed on through `vbar`, the solution of `A' vbar = w`. -/
def FlciStage (kappa half : ℝ) (w : Fin (p + (q + 1)) → ℝ) (A : List (ℕ → ℝ)) (kind : CiKind A.length) : Prop :=
  ∃ vbar, kind = CiKind.flci kappa half vbar ∧ vbar ᵥ* toMat (p + (q + 1)) A = w

/-! ## Lemmas -/

theorem vbar_line {R : ℕ} (A : Matrix (Fin R) (Fin (p + (q + 1))) ℝ) (G : Matrix (Fin (q + 1)) (Fin (q + 1)) ℝ) (d : Fin R → ℝ)
    (b : Fin (p + (q + 1)) → ℝ) (theta : ℝ) (vbar : Fin R → ℝ) :
    vbar ⬝ᵥ yTheta A G d b theta = (vbar ᵥ* A) ⬝ᵥ b - vbar ⬝ᵥ d - (vbar ⬝ᵥ aOne A G) * theta := by
  have : yTheta A G d b theta = A *ᵥ b - d - theta • aOne A G := by
    funext i
    simp only [yTheta, Pi.sub_apply, Pi.smul_apply, smul_eq_mul]
    ring
  rw [this, dotProduct_sub, dotProduct_sub, dotProduct_mulVec, dotProduct_smul, smul_eq_mul]
  ring

/-- A value the FLCI hybrid accepts lies in the fixed-length interval. -/
theorem flci_accept {R r : ℕ} (solve : (Fin r → ℝ) → Option (LpSol r q)) (dual : ℝ → (Fin r → ℝ) → (Fin r → ℝ) → Bnd ℝ × Bnd ℝ)
    (A : Matrix (Fin R) (Fin (p + (q + 1))) ℝ) (G : Matrix (Fin (q + 1)) (Fin (q + 1)) ℝ) (d : Fin R → ℝ)
    (sigma : Matrix (Fin (p + (q + 1))) (Fin (p + (q + 1))) ℝ) (rows : Fin r → Fin R) (kappa half : ℝ) (vbar : Fin R → ℝ) (alpha : ℝ)
    (b : Fin (p + (q + 1)) → ℝ) (theta : ℝ) (hsucc : ∀ u, solve u ≠ none)
    (h : nuisTest solve dual A G d sigma rows (CiKind.flci kappa half vbar) alpha b theta = some false) :
    |(vbar ᵥ* A) ⬝ᵥ b - theta| ≤ half := by
  by_contra hlt
  push Not at hlt
  unfold nuisTest lpTest at h
  dsimp only at h
  cases hs : solve (yTheta A G d b theta ∘ rows) with
  | none => exact hsucc _ hs
  | some s =>
    rw [hs] at h
    dsimp only at h
    rw [if_pos] at h
    · cases h
    · show 0 < max (vbar ⬝ᵥ yTheta A G d b theta - (half - vbar ⬝ᵥ d + (1 - vbar ⬝ᵥ aOne A G) * theta))
        (-(vbar ⬝ᵥ yTheta A G d b theta) - (half + vbar ⬝ᵥ d - (1 - vbar ⬝ᵥ aOne A G) * theta))
      rw [vbar_line, lt_max_iff]
      rcases lt_abs.1 hlt with h1 | h1
      · left; linarith
      · right; linarith

/-- A grid value one pair flags lies in the fixed-length interval. -/
theorem flag_flci (A : List (ℕ → ℝ)) (rows : List (Fin A.length)) (T : Tools q A rows) (l : Fin (q + 1) → ℝ)
    (sigma : Matrix (Fin (p + (q + 1))) (Fin (p + (q + 1))) ℝ) (alpha : ℝ) (b : Fin (p + (q + 1)) → ℝ) (lo up : ℝ) (hle : lo ≤ up) (points : ℕ)
    (kappa half : ℝ) (w : Fin (p + (q + 1)) → ℝ) (hk : FlciStage kappa half w A T.kind) (hsucc : ∀ u, T.solve u ≠ none) (col : List Bool)
    (hcol : pieceFlags A rows T l sigma alpha b lo up points = some col) (i : ℕ) (hi : i < points) (hf : col.getD i false = true) :
    |w ⬝ᵥ b - gridAt lo up points i| ≤ half := by
  classical
  obtain ⟨vbar, hkind, hw⟩ := hk
  unfold pieceFlags nuisCi at hcol
  cases hG : constructGamma l with
  | none => rw [hG] at hcol; cases hcol
  | some G =>
    rw [hG, Option.bind_some] at hcol
    dsimp only [nuisRange, Option.getD_some] at hcol
    split_ifs at hcol with hbad
    · cases hcol
    · have h2 : 2 ≤ points := by
        by_contra h
        exact hbad (Or.inl (by omega))
      obtain ⟨test, htest⟩ : ∃ t : ℕ → Bool, t = fun i => decide (nuisTest T.solve T.dual (toMat (p + (q + 1)) A) G 0 sigma rows.get T.kind alpha b
        ((linGrid lo up points).getD i 0) = some false) := ⟨_, rfl⟩
      rw [← htest] at hcol
      obtain ⟨rr, hr, -, hends⟩ := C163_ends test points (by omega)
      rw [hr] at hcol
      have hacc : ∀ k, test k = true → |w ⬝ᵥ b - (linGrid lo up points).getD k 0| ≤ half := by
        intro k hk
        rw [htest] at hk
        have hk' := of_decide_eq_true hk
        rw [hkind] at hk'
        rw [← hw]
        exact flci_accept T.solve T.dual _ G 0 sigma rows.get kappa half vbar alpha b _ hsucc hk'
      have hlen : (linGrid lo up points).length = points := by simp [linGrid]
      cases rr with
      | none =>
        exfalso
        cases hcol
        rw [List.getD_eq_getElem?_getD, List.getElem?_map, List.getElem?_map, List.getElem?_eq_getElem (by rw [hlen]; exact hi)] at hf
        simp at hf
      | some lu =>
        obtain ⟨lb, ub⟩ := lu
        obtain ⟨_, hub, ht1, ht2, -, -⟩ := hends lb ub rfl
        cases hcol
        rw [List.getD_eq_getElem?_getD, List.getElem?_map, List.getElem?_mapIdx, List.getElem?_eq_getElem (by rw [hlen]; exact hi)] at hf
        have hf' : lb ≤ i ∧ i ≤ ub := by simpa using hf
        have g1 := grid_mono lo up points lb i h2 hle hf'.1 hi
        have g2 := grid_mono lo up points i ub h2 hle hf'.2 hub
        have a1 := abs_le.1 (hacc lb ht1)
        have a2 := abs_le.1 (hacc ub ht2)
        rw [grid_value lo up points i h2 hi] at g1 g2
        show |w ⬝ᵥ b - (lo + (i : ℝ) * ((up - lo) / (points - 1)))| ≤ half
        rw [abs_le]
        exact ⟨by linarith [a2.1], by linarith [a1.2]⟩

theorem mapM_mem_inv {α β : Type*} (f : α → Option β) (l : List α) (ys : List β) (h : l.mapM f = some ys) (y : β) (hy : y ∈ ys) :
    ∃ x ∈ l, f x = some y := by
  induction l generalizing ys with
  | nil => cases h; cases hy
  | cons a l ih =>
    rw [List.mapM_cons] at h
    cases ha : f a with
    | none => rw [ha] at h; cases h
    | some b =>
      cases hl : l.mapM f with
      | none => rw [ha, hl] at h; cases h
      | some bs =>
        rw [ha, hl] at h
        cases h
        rcases List.mem_cons.1 hy with rfl | hy
        · exact ⟨a, List.mem_cons_self, ha⟩
        · obtain ⟨x, hx, e⟩ := ih bs hl hy
          exact ⟨x, List.mem_cons_of_mem _ hx, e⟩

/-- A kinked path: quadratic before the reference period, a line of slope `c` after it. -/
noncomputable def kink (p : ℕ) (K c : ℝ) (j : ℕ) : ℝ := if j < p then K * ((p : ℝ) - j) ^ 2 else K * (c * ((j : ℝ) - p + 1))

theorem full_kink (p : ℕ) (K c : ℝ) (j : ℕ) : full p (kink p K c) j = if j ≤ p then K * ((p : ℝ) - j) ^ 2 else K * (c * ((j : ℝ) - p)) := by
  unfold full kink
  by_cases h1 : j < p
  · rw [if_pos h1, if_pos h1, if_pos h1.le]
  · rw [if_neg h1]
    by_cases h2 : j = p
    · rw [if_pos h2, if_pos h2.le, h2]; ring
    · have h3 : p < j := by omega
      rw [if_neg h2, if_neg (by omega : ¬ j ≤ p), if_neg (by omega : ¬ j - 1 < p)]
      have : ((j - 1 : ℕ) : ℝ) = (j : ℝ) - 1 := by
        rw [Nat.cast_sub (by omega)]; simp
      rw [this]
      ring

theorem kink_mem (p q : ℕ) (hp : 2 ≤ p) (mbar K c : ℝ) (h0 : 0 ≤ mbar) (hc : |c + 1| ≤ 2 * mbar) : kink p K c ∈ DeltaSDRM p q mbar := by
  have hpre : ∀ r, r + 2 ≤ p → D2 (full p (kink p K c)) r = 2 * K := by
    intro r hr
    unfold D2
    rw [full_kink, full_kink, full_kink, if_pos (by omega), if_pos (by omega), if_pos hr]
    push_cast
    ring
  refine ⟨0, by omega, fun r hr => by rw [hpre r hr, hpre 0 (by omega)], fun t h1 h2 => ?_⟩
  rw [hpre 0 (by omega)]
  rcases Nat.lt_or_ge (t + 1) (p + 1) with ht | ht
  · have e : t + 1 = p := by omega
    have hD : D2 (full p (kink p K c)) t = K * (c + 1) := by
      unfold D2
      rw [full_kink, full_kink, full_kink, if_pos (by omega), if_pos (by omega), if_neg (by omega)]
      have : (p : ℝ) = t + 1 := by rw [← e]; push_cast; ring
      push_cast
      rw [this]
      ring
    rw [hD, abs_mul, abs_mul]
    have : |(2 : ℝ)| = 2 := by norm_num
    rw [this]
    nlinarith [abs_nonneg K, mul_le_mul_of_nonneg_left hc (abs_nonneg K)]
  · have hD : D2 (full p (kink p K c)) t = 0 := by
      unfold D2
      rw [full_kink, full_kink, full_kink, if_neg (by omega : ¬ t + 1 ≤ p), if_neg (by omega : ¬ t + 2 ≤ p)]
      split_ifs with hh
      · have e : (t : ℝ) = p := by
          have : t = p := by omega
          rw [this]
        push_cast
        rw [e]
        ring
      · push_cast
        ring
    rw [hD, abs_zero]
    positivity

/-- The bias of the weights at a kinked path. -/
theorem kink_bias (w : Fin (p + (q + 1)) → ℝ) (l : Fin (q + 1) → ℝ) (hl : ∀ j, w (Fin.natAdd p j) = l j) (K c : ℝ) (τ : Fin (q + 1) → ℝ) :
    w ⬝ᵥ trueBeta p q (kink p K c) τ - l ⬝ᵥ τ =
      K * ((∑ j : Fin p, w (Fin.castAdd (q + 1) j) * ((p : ℝ) - (j : ℕ)) ^ 2) + c * ∑ j : Fin (q + 1), ((j : ℕ) + 1) * l j) := by
  unfold dotProduct trueBeta padPost
  rw [Fin.sum_univ_add]
  simp only [Fin.append_left, Fin.append_right, Pi.zero_apply, add_zero, Fin.val_castAdd, Fin.val_natAdd, hl]
  have e1 : ∀ j : Fin p, w (Fin.castAdd (q + 1) j) * kink p K c j = K * (w (Fin.castAdd (q + 1) j) * ((p : ℝ) - (j : ℕ)) ^ 2) := by
    intro j
    unfold kink
    rw [if_pos j.2]
    ring
  have e2 : ∀ j : Fin (q + 1), l j * (kink p K c (p + j) + τ j) = K * (c * (((j : ℕ) + 1) * l j)) + l j * τ j := by
    intro j
    unfold kink
    rw [if_neg (by omega)]
    push_cast
    ring
  rw [sum_congr rfl fun j _ => e1 j, sum_congr rfl fun j _ => e2 j, sum_add_distrib, ← mul_sum, ← mul_sum, ← mul_sum]
  ring

theorem gauss_tail (V : NNReal) (ε half b : ℝ) (hε : 0 < ε) (hb : b ≠ 0) :
    ∃ K : ℝ, ∀ m θ : ℝ, m - θ = K * b → (gaussianReal m V).real {x | |x - θ| ≤ half} ≤ ε := by
  have ht := tendsto_cdf_atBot (gaussianReal 0 V)
  have hev : ∀ᶠ x in atBot, cdf (gaussianReal 0 V) x < ε := ht.eventually (gt_mem_nhds hε)
  obtain ⟨x0, hx0⟩ := eventually_atBot.1 hev
  refine ⟨(half - x0) / b, fun m θ hm => ?_⟩
  rw [div_mul_cancel₀ _ hb] at hm
  have hmap : gaussianReal m V = (gaussianReal 0 V).map (fun x => x + m) := by
    rw [gaussianReal_map_add_const, zero_add]
  have hmeas : MeasurableSet {x : ℝ | |x - θ| ≤ half} := by
    have : Measurable fun x : ℝ => |x - θ| := (measurable_id.sub_const θ).abs
    exact this measurableSet_Iic
  rw [hmap, map_measureReal_apply (by fun_prop : Measurable fun x : ℝ => x + m) hmeas]
  have h1 : (gaussianReal 0 V).real ((fun x => x + m) ⁻¹' {x : ℝ | |x - θ| ≤ half}) ≤ (gaussianReal 0 V).real (Set.Iic x0) := by
    refine measureReal_mono ?_
    intro x hx
    have hx' : |x + m - θ| ≤ half := hx
    have := (abs_le.1 hx').2
    show x ≤ x0
    linarith
  rw [← cdf_eq_real] at h1
  exact h1.trans (hx0 x0 le_rfl).le

/-! ## C238 -/

/-- **C238.**  Every grid value reported by `compute_conditional_cs_sdrm(hybrid_flag="FLCI")` lies in the fixed-length interval of its first
stage. -/
theorem C238_inside_flci (tol mbar : ℝ) (l : Fin (q + 1) → ℝ) (sigma : Matrix (Fin (p + (q + 1))) (Fin (p + (q + 1))) ℝ) (kappa half alpha : ℝ)
    (w : Fin (p + (q + 1)) → ℝ) (postOnly : Bool)
    (T : ∀ s b, Tools q (relMat true tol p (q + 1) mbar Extra.free s b) (arpRows postOnly p (q + 1) (relMat true tol p (q + 1) mbar Extra.free s b)))
    (hT : ∀ s ∈ relRefs true p Extra.free, ∀ b, FlciStage kappa half w _ (T s b).kind)
    (hsucc : ∀ s ∈ relRefs true p Extra.free, ∀ b u, (T s b).solve u ≠ none)
    (betahat : Fin (p + (q + 1)) → ℝ) (lo up : ℝ) (hle : lo ≤ up) (points i : ℕ) (hi : i < points) (flags : List Bool)
    (hflags : relCs true tol mbar Extra.free postOnly l T sigma alpha betahat lo up points = some flags) (hf : flags[i]? = some true) :
    |w ⬝ᵥ betahat - gridAt lo up points i| ≤ half := by
  unfold relCs at hflags
  split_ifs at hflags with hp
  obtain ⟨cols, hcols, rfl⟩ := Option.map_eq_some_iff.1 hflags
  rw [List.getElem?_map, List.getElem?_range hi] at hf
  have hany : (cols.any fun col => col.getD i false) = true := by simpa using hf
  obtain ⟨col, hmem, hcol⟩ := List.any_eq_true.1 hany
  obtain ⟨sb, hin, hsb⟩ := mapM_mem_inv _ _ _ hcols col hmem
  have hs : sb.1 ∈ relRefs true p Extra.free := by
    obtain ⟨s, hs, hin⟩ := List.mem_flatMap.1 hin
    rcases List.mem_cons.1 hin with rfl | hin
    · exact hs
    · rw [List.mem_singleton.1 hin]; exact hs
  exact flag_flci _ _ (T sb.1 sb.2) l sigma alpha betahat lo up hle points kappa half w (hT sb.1 hs sb.2) (hsucc sb.1 hs sb.2) col hsb i hi hcol

/-- **C238, violated.**  The confidence set of `compute_conditional_cs_sdrm(hybrid_flag="FLCI")` does not hold its level: whatever the level,
the half-length and the weights of the fixed-length interval, there are violations in the documented set under which it contains the true
effect with probability as small as one likes. -/
theorem C238_flci_coverage_violated (tol mbar : ℝ) (hm : 0 < mbar) (hp : 2 ≤ p) (l : Fin (q + 1) → ℝ) (hl : ∑ j : Fin (q + 1), (((j : ℕ) : ℝ) + 1) * l j ≠ 0)
    (sigma : Matrix (Fin (p + (q + 1))) (Fin (p + (q + 1))) ℝ) (kappa half alpha : ℝ) (w : Fin (p + (q + 1)) → ℝ)
    (hw : ∀ j, w (Fin.natAdd p j) = l j) (postOnly : Bool)
    (T : ∀ s b, Tools q (relMat true tol p (q + 1) mbar Extra.free s b) (arpRows postOnly p (q + 1) (relMat true tol p (q + 1) mbar Extra.free s b)))
    (hT : ∀ s ∈ relRefs true p Extra.free, ∀ b, FlciStage kappa half w _ (T s b).kind)
    (hsucc : ∀ s ∈ relRefs true p Extra.free, ∀ b u, (T s b).solve u ≠ none) (ε : ℝ) (hε : 0 < ε) :
    ∃ v ∈ DeltaSDRM p (q + 1) mbar, ∀ (P : Measure Ω) [IsProbabilityMeasure P] (betahat : Ω → Fin (p + (q + 1)) → ℝ) (τ : Fin (q + 1) → ℝ)
      (lo up : ℝ) (points i : ℕ), GaussVec P betahat (trueBeta p q v τ) sigma → lo ≤ up → i < points → l ⬝ᵥ τ = gridAt lo up points i →
      P.real {ω | ∃ flags, relCs true tol mbar Extra.free postOnly l T sigma alpha (betahat ω) lo up points = some flags ∧ flags[i]? = some true} ≤ ε := by
  obtain ⟨B, hB⟩ : ∃ B, B = ∑ j : Fin p, w (Fin.castAdd (q + 1) j) * ((p : ℝ) - (j : ℕ)) ^ 2 := ⟨_, rfl⟩
  obtain ⟨L, hL⟩ : ∃ L, L = ∑ j : Fin (q + 1), (((j : ℕ) : ℝ) + 1) * l j := ⟨_, rfl⟩
  rw [← hL] at hl
  obtain ⟨c, hc, hne⟩ : ∃ c, |c + 1| ≤ 2 * mbar ∧ B + c * L ≠ 0 := by
    by_cases h : B + -1 * L = 0
    · refine ⟨-1 + 2 * mbar, ?_, ?_⟩
      · rw [show -1 + 2 * mbar + 1 = 2 * mbar by ring, abs_of_pos (by linarith)]
      · intro h'
        have : 2 * mbar * L = 0 := by linarith
        rcases mul_eq_zero.1 this with h'' | h''
        · linarith
        · exact hl h''
    · exact ⟨-1, by simp; linarith, h⟩
  obtain ⟨K, hK⟩ := gauss_tail (w ⬝ᵥ (sigma *ᵥ w)).toNNReal ε half _ hε hne
  refine ⟨kink p K c, kink_mem p (q + 1) hp mbar K c hm.le hc, ?_⟩
  intro P _ betahat τ lo up points i hβ hle hi hgrid
  have hbias := kink_bias w l hw K c τ
  rw [← hB, ← hL] at hbias
  have hlaw := hβ w
  have hae : AEMeasurable (fun ω => w ⬝ᵥ betahat ω) P := aemeasurable_of_map_neZero (by rw [hlaw]; infer_instance)
  have hmeas : MeasurableSet {x : ℝ | |x - l ⬝ᵥ τ| ≤ half} := by
    have : Measurable fun x : ℝ => |x - l ⬝ᵥ τ| := (measurable_id.sub_const _).abs
    exact this measurableSet_Iic
  have h1 : P.real {ω | |w ⬝ᵥ betahat ω - l ⬝ᵥ τ| ≤ half} = (gaussianReal (w ⬝ᵥ trueBeta p q (kink p K c) τ) (w ⬝ᵥ (sigma *ᵥ w)).toNNReal).real
      {x | |x - l ⬝ᵥ τ| ≤ half} := by
    rw [← hlaw, map_measureReal_apply_of_aemeasurable hae hmeas]
    rfl
  refine le_trans (measureReal_mono ?_) (h1.le.trans (hK _ _ hbias))
  rintro ω ⟨flags, hflags, hf⟩
  show |w ⬝ᵥ betahat ω - l ⬝ᵥ τ| ≤ half
  rw [hgrid]
  exact C238_inside_flci tol mbar l sigma kappa half alpha w postOnly T hT hsucc (betahat ω) lo up hle points i hi flags hflags hf

/-! ## A concrete case: two pre- and two post-periods, effect of the first post-period, weights `(0, 1, 1, 0)` -/

theorem sdmat_pos : relMat true (1 / 10 ^ 10) 2 2 1 Extra.free 0 true =
    [rowOf [-1, 3, 1, 0], rowOf [-1, 2, -2, 1], rowOf [-2, 4, 0, 0], rowOf [-1, 1, -1, 0], rowOf [-1, 2, 2, -1]] := by
  have hstack : absStack ((List.range 3).map fun r => setSlice r [1, -2, 1] fun _ => (0 : ℝ))
      (ubRows 1 2 1 (signed true (setSlice 0 [1, -2, 1] fun _ => (0 : ℝ)))) =
      [rowOf [0, 0, 0, 0, 0], rowOf [-1, 3, -3, 1, 0], rowOf [-1, 2, 0, -2, 1], rowOf [-2, 4, -2, 0, 0], rowOf [-1, 1, 1, -1, 0],
        rowOf [-1, 2, -2, 2, -1]] := by
    simp only [absStack, ubRows, List.range_succ, List.range_zero, List.replicate, List.nil_append, List.cons_append, List.map_cons,
      List.map_nil, List.zipWith_cons_cons, List.zipWith_nil_left, List.cons.injEq, and_true]
    refine ⟨?_, ?_, ?_, ?_, ?_, ?_⟩ <;> funext j <;> rcases j with _ | _ | _ | _ | _ | j <;>
      simp [setSlice, signed, rowOf] <;> norm_num
  unfold relMat sdrmMatrix
  rw [if_pos rfl]
  have hn : (((2 : ℕ) : ℤ) + 0 - 2).toNat = 0 := by decide
  dsimp only
  rw [hn, show 2 + 2 - 1 = 3 from rfl, show 2 - 1 = 1 from rfl, hstack]
  have hdrop : dropZeroRowsSq (2 + 2 + 1) (1 / 10 ^ 10 : ℝ) [rowOf [0, 0, 0, 0, 0], rowOf [-1, 3, -3, 1, 0], rowOf [-1, 2, 0, -2, 1],
      rowOf [-2, 4, -2, 0, 0], rowOf [-1, 1, 1, -1, 0], rowOf [-1, 2, -2, 2, -1]] =
      [rowOf [-1, 3, -3, 1, 0], rowOf [-1, 2, 0, -2, 1], rowOf [-2, 4, -2, 0, 0], rowOf [-1, 1, 1, -1, 0], rowOf [-1, 2, -2, 2, -1]] := by
    unfold dropZeroRowsSq
    rw [List.filter_cons_of_neg, List.filter_cons_of_pos, List.filter_cons_of_pos, List.filter_cons_of_pos, List.filter_cons_of_pos,
      List.filter_cons_of_pos, List.filter_nil]
    all_goals rw [decide_eq_true_eq]
    all_goals norm_num [sum_range_succ, rowOf]
  rw [hdrop]
  simp only [Extra.rows, List.append_nil, List.map_cons, List.map_nil, List.cons.injEq, and_true]
  refine ⟨?_, ?_, ?_, ?_, ?_⟩ <;> funext j <;> rcases j with _ | _ | _ | _ | j <;> simp [delCol, rowOf]

theorem sdmat_neg : relMat true (1 / 10 ^ 10) 2 2 1 Extra.free 0 false =
    [rowOf [2, -4, 0, 0], rowOf [1, -1, 1, 0], rowOf [1, -2, -2, 1], rowOf [1, -3, -1, 0], rowOf [1, -2, 2, -1]] := by
  have hstack : absStack ((List.range 3).map fun r => setSlice r [1, -2, 1] fun _ => (0 : ℝ))
      (ubRows 1 2 1 (signed false (setSlice 0 [1, -2, 1] fun _ => (0 : ℝ)))) =
      [rowOf [2, -4, 2, 0, 0], rowOf [1, -1, -1, 1, 0], rowOf [1, -2, 2, -2, 1], rowOf [0, 0, 0, 0, 0], rowOf [1, -3, 3, -1, 0],
        rowOf [1, -2, 0, 2, -1]] := by
    simp only [absStack, ubRows, List.range_succ, List.range_zero, List.replicate, List.nil_append, List.cons_append, List.map_cons,
      List.map_nil, List.zipWith_cons_cons, List.zipWith_nil_left, List.cons.injEq, and_true]
    refine ⟨?_, ?_, ?_, ?_, ?_, ?_⟩ <;> funext j <;> rcases j with _ | _ | _ | _ | _ | j <;>
      simp [setSlice, signed, rowOf] <;> norm_num
  unfold relMat sdrmMatrix
  rw [if_pos rfl]
  have hn : (((2 : ℕ) : ℤ) + 0 - 2).toNat = 0 := by decide
  dsimp only
  rw [hn, show 2 + 2 - 1 = 3 from rfl, show 2 - 1 = 1 from rfl, hstack]
  have hdrop : dropZeroRowsSq (2 + 2 + 1) (1 / 10 ^ 10 : ℝ) [rowOf [2, -4, 2, 0, 0], rowOf [1, -1, -1, 1, 0], rowOf [1, -2, 2, -2, 1],
      rowOf [0, 0, 0, 0, 0], rowOf [1, -3, 3, -1, 0], rowOf [1, -2, 0, 2, -1]] =
      [rowOf [2, -4, 2, 0, 0], rowOf [1, -1, -1, 1, 0], rowOf [1, -2, 2, -2, 1], rowOf [1, -3, 3, -1, 0], rowOf [1, -2, 0, 2, -1]] := by
    unfold dropZeroRowsSq
    rw [List.filter_cons_of_pos, List.filter_cons_of_pos, List.filter_cons_of_pos, List.filter_cons_of_neg, List.filter_cons_of_pos,
      List.filter_cons_of_pos, List.filter_nil]
    all_goals rw [decide_eq_true_eq]
    all_goals norm_num [sum_range_succ, rowOf]
  rw [hdrop]
  simp only [Extra.rows, List.append_nil, List.map_cons, List.map_nil, List.cons.injEq, and_true]
  refine ⟨?_, ?_, ?_, ?_, ?_⟩ <;> funext j <;> rcases j with _ | _ | _ | _ | j <;> simp [delCol, rowOf]

theorem stage_of (A : List (ℕ → ℝ)) (B : List (ℕ → ℝ)) (h : A = B) (kappa half : ℝ) (w : Fin (p + (q + 1)) → ℝ)
    (hB : ∃ vbar, vbar ᵥ* toMat (p + (q + 1)) B = w) : ∃ kind, FlciStage kappa half w A kind := by
  subst h
  obtain ⟨v, hv⟩ := hB
  exact ⟨_, v, rfl, hv⟩

/-- Both pairs have a first stage with these weights. -/
theorem stage_ex (b : Bool) : ∃ kind, FlciStage (p := 2) (q := 1) (1 / 200) 3 ![0, 1, 1, 0] (relMat true (1 / 10 ^ 10) 2 2 1 Extra.free 0 b) kind := by
  cases b
  · refine stage_of _ _ sdmat_neg _ _ _ ⟨![0, 1 / 2, 0, -1 / 2, 0], ?_⟩
    funext j
    fin_cases j <;> simp [vecMul, dotProduct, Fin.sum_univ_succ, toMat, rowOf] <;> norm_num
  · refine stage_of _ _ sdmat_pos _ _ _ ⟨![1 / 2, 0, 0, -1 / 2, 0], ?_⟩
    funext j
    fin_cases j <;> simp [vecMul, dotProduct, Fin.sum_univ_succ, toMat, rowOf] <;> norm_num

/-- The hypotheses are met: independent normal estimates, half-length 3; under some violation in the set with `Mbar = 1` the true effect `1`,
a grid value, is in the nominal 95% set with probability at most 1%. -/
example : ∃ T : ∀ s b, Tools 1 (relMat true (1 / 10 ^ 10) 2 2 1 Extra.free s b) (arpRows true 2 2 (relMat true (1 / 10 ^ 10) 2 2 1 Extra.free s b)),
    ∃ v ∈ DeltaSDRM 2 2 1, (stdNormals 4).real {z | ∃ flags, relCs true (1 / 10 ^ 10) 1 Extra.free true ![1, 0] T s4 (1 / 20)
        (fun i => trueBeta 2 1 v ![1, 2] i + Real.sqrt (d4 i) * z i) (-2) 2 5 = some flags ∧ flags[(3 : ℕ)]? = some true} ≤ 1 / 100 := by
  have : IsProbabilityMeasure (stdNormals 4) := by unfold stdNormals; infer_instance
  have hex : ∀ s b, ∃ T : Tools 1 (relMat true (1 / 10 ^ 10) 2 2 1 Extra.free s b) (arpRows true 2 2 (relMat true (1 / 10 ^ 10) 2 2 1 Extra.free s b)),
      (s ∈ relRefs true 2 Extra.free → FlciStage (p := 2) (q := 1) (1 / 200) 3 ![0, 1, 1, 0] _ T.kind) ∧ ∀ u, T.solve u ≠ none := by
    intro s b
    by_cases hs : s ∈ relRefs true 2 Extra.free
    · have hs1 : s = 0 := by
        have e : relRefs true 2 Extra.free = [0] := by decide
        rw [e] at hs
        simpa using hs
      subst hs1
      obtain ⟨kind, hk⟩ := stage_ex b
      exact ⟨⟨kind, fun _ => some ⟨0, 0, 0⟩, fun _ _ _ => (Bnd.nan, Bnd.nan)⟩, fun _ => hk, fun _ h => by cases h⟩
    · exact ⟨⟨CiKind.arp, fun _ => some ⟨0, 0, 0⟩, fun _ _ _ => (Bnd.nan, Bnd.nan)⟩, fun h => absurd h hs, fun _ h => by cases h⟩
  choose T h1 h2 using hex
  obtain ⟨v, hv, h⟩ := C238_flci_coverage_violated (Ω := Fin 4 → ℝ) (p := 2) (q := 1) (1 / 10 ^ 10) 1 one_pos le_rfl ![1, 0]
    (by simp [Fin.sum_univ_two]) s4 (1 / 200) 3 (1 / 20) ![0, 1, 1, 0] (by intro j; fin_cases j <;> rfl) true T (fun s hs b => h1 s b hs)
    (fun s _ b => h2 s b) (1 / 100) (by norm_num)
  refine ⟨T, v, hv, h (stdNormals 4) _ ![1, 2] (-2) 2 5 3 (gaussS4 _) (by norm_num) (by norm_num) ?_⟩
  simp [dotProduct, Fin.sum_univ_two, gridAt]
  norm_num

end Verif.Honest
