import Verif.Ident.Reg
import Verif.Triple.Props

set_option linter.unusedSectionVars false
set_option linter.unusedSimpArgs false

/-!
# C253: triple differences when the outcome models are linear
-/

namespace Verif.Ident

open Verif.DR Verif.Triple MeasureTheory

variable {ι κ Ω : Type*} [Fintype ι] [Fintype κ] [DecidableEq κ] [MeasurableSpace Ω] {sg : ι → ℕ}

/-! ## Specification -/

/-- Triple-difference parallel trends with linear models.  Mean changes of the subgroups 1, 2, 3 are linear in the covariates (coefficients `β k`);
without treatment the mean change of subgroup 4 would differ from that of subgroup 3 as subgroup 2 differs from subgroup 1; `effect` comes on top. -/
structure TripleTrends (P : Measure Ω) (y1 y0 : Ω → ι → ℝ) (sg : ι → ℕ) (x : ι → κ → ℝ) (β : ℕ → κ → ℝ) (effect : ι → ℝ) : Prop where
  int1 : ∀ i, Integrable (fun ω => y1 ω i) P
  int0 : ∀ i, Integrable (fun ω => y0 ω i) P
  comparison : ∀ i, sg i ∈ [1, 2, 3] → (∫ ω, y1 ω i ∂P) - ∫ ω, y0 ω i ∂P = ∑ k, x i k * β (sg i) k
  treated : ∀ i, sg i = 4 → (∫ ω, y1 ω i ∂P) - ∫ ω, y0 ω i ∂P =
    ∑ k, x i k * β 3 k + (∑ k, x i k * β 2 k - ∑ k, x i k * β 1 k) + effect i

/-! ## Proof -/

/-- One comparison. -/
theorem comp_mean (P : Measure Ω) (F : Triple.Fits sg κ ℝ) (m : Est) (hm : m ≠ .ipw) (hi level : ℝ) (c : ℕ) (hc : c ≠ 4) (dy : Ω → ι → ℝ)
    (hint : ∀ i, Integrable (fun ω => dy ω i) P) (x : ι → κ → ℝ) (w : ι → ℝ) (β : κ → ℝ)
    (hf : Fits (F.ols c) (onSub sg c w) (notB (pa4 sg c)) (onSub sg c x)) (hlin : ∀ i, sg i = c → ∫ ω, dy ω i ∂P = ∑ k, x i k * β k)
    (hw4 : ∑ i with sg i = 4, w i ≠ 0) :
    Integrable (fun ω => compAtt m sg c (nuis F m hi level c w x (dy ω)) w (dy ω)) P ∧
      ∫ ω, compAtt m sg c (nuis F m hi level c w x (dy ω)) w (dy ω) ∂P = wavg w (fun i => sg i = 4) fun i => (∫ ω, dy ω i ∂P) - ∑ k, x i k * β k := by
  have hb := fun k => ols_mean P (F.ols c) (onSub sg c w) (notB (pa4 sg c)) (onSub sg c x) hf (fun ω => onSub sg c (dy ω)) (fun i => hint i.1) β
    (fun i h => by
      refine hlin i.1 ?_
      have : ¬ sg i.1 = 4 := by simpa [notB, pa4] using h
      exact i.2.resolve_left this) k
  have hr : ∀ i : Sub sg c, Integrable (fun ω => dy ω i.1 - prediction F c w x (dy ω) i) P ∧
      ∫ ω, (dy ω i.1 - prediction F c w x (dy ω) i) ∂P = (∫ ω, dy ω i.1 ∂P) - ∑ k, x i.1 k * β k := by
    intro i
    obtain ⟨h1, h2⟩ := fitted_mean P (onSub sg c x) (fun ω => F.ols c (onSub sg c w) (notB (pa4 sg c)) (onSub sg c x) (onSub sg c (dy ω))) β hb i
    exact ⟨(hint _).sub h1, by rw [show (fun ω => dy ω i.1 - prediction F c w x (dy ω) i) = fun ω => dy ω i.1 - fitted (onSub sg c x)
      (F.ols c (onSub sg c w) (notB (pa4 sg c)) (onSub sg c x) (onSub sg c (dy ω))) i from rfl, integral_sub (hint _) h1, h2]; rfl⟩
  obtain ⟨n, hn⟩ : ∃ n : (ι → ℝ) → Nuis (Sub sg c) κ ℝ, ∀ d, n d = nuis F m hi level c w x d := ⟨_, fun _ => rfl⟩
  have hT : ∀ ω, Triple.wTreat sg c (nuis F m hi level c w x (dy ω)) w = fun i => ind (pa4 sg c) i * onSub sg c w i := by
    intro ω
    funext i
    unfold Triple.wTreat ind
    by_cases h : pa4 sg c i = true
    · have : (nuis F m hi level c w x (dy ω)).keep i = true := by
        unfold nuis
        by_cases hr : m = .reg <;> simp [hr, h]
      simp [h, this, onSub]
    · simp [h]
  have hCz : ∀ (ω : Ω) i, Triple.wControl m sg c (nuis F m hi level c w x (dy ω)) w i =
      Triple.wControl m sg c (nuis F m hi level c w x fun _ => 0) w i := by
    intro ω i
    unfold Triple.wControl nuis
    by_cases hr : m = .reg <;> simp [hr]
  have hC0 : ∀ i : Sub sg c, Triple.wControl m sg c (nuis F m hi level c w x fun _ => 0) w i * ((∫ ω, dy ω i.1 ∂P) - ∑ k, x i.1 k * β k) = 0 := by
    intro i
    by_cases h : sg i.1 = c
    · rw [hlin i.1 h, sub_self, mul_zero]
    · have : paComp sg c i = false := by simp [paComp, h]
      unfold Triple.wControl ind
      by_cases hr : m = .reg <;> simp [hr, this]
  have e : ∀ ω, compAtt m sg c (nuis F m hi level c w x (dy ω)) w (dy ω) =
      wmean (fun i => ind (pa4 sg c) i * onSub sg c w i) (fun i => dy ω i.1 - prediction F c w x (dy ω) i) -
      wmean (Triple.wControl m sg c (nuis F m hi level c w x fun _ => 0) w) (fun i => dy ω i.1 - prediction F c w x (dy ω) i) := by
    intro ω
    unfold compAtt wmean
    rw [hT ω, nuis_out F hm _ _ hc, funext (hCz ω)]
  simp only [e]
  obtain ⟨a1, a2⟩ := wmean_integral P (fun i => ind (pa4 sg c) i * onSub sg c w i) (fun ω i => dy ω i.1 - prediction F c w x (dy ω) i) _ hr
  obtain ⟨b1, b2⟩ := wmean_integral P (Triple.wControl m sg c (nuis F m hi level c w x fun _ => 0) w)
    (fun ω i => dy ω i.1 - prediction F c w x (dy ω) i) _ hr
  refine ⟨a1.sub b1, ?_⟩
  have hne : Nonempty (Sub sg c) := by
    by_contra hno
    refine hw4 (Finset.sum_eq_zero fun i hi => ?_)
    exact absurd ⟨⟨i, .inl (Finset.mem_filter.1 hi).2⟩⟩ hno
  rw [integral_sub a1 b1, a2, b2, wmean_group]
  have hz : wmean (Triple.wControl m sg c (nuis F m hi level c w x fun _ => 0) w) (fun i : Sub sg c => (∫ ω, dy ω i.1 ∂P) - ∑ k, x i.1 k * β k) = 0 := by
    unfold wmean DR.mean
    rw [Finset.sum_eq_zero fun i _ => hC0 i]
    simp
  rw [hz, sub_zero]
  have := wavg_sub (sg := sg) c 4 (.inl rfl) w fun i => (∫ ω, dy ω i ∂P) - ∑ k, x i k * β k
  rw [← this]
  unfold wavg pa4 onSub
  simp only [decide_eq_true_eq]

/-- **C253.**  Whenever `ddd_panel` with the `reg` or `dr` method returns, its estimate is unbiased for the weighted mean effect on the treated and
eligible units, whatever the propensity scores. -/
theorem C253_ddd (P : Measure Ω) [IsProbabilityMeasure P] (F : Triple.Fits sg κ ℝ) (m : Est) (hm : m = .reg ∨ m = .dr) (hi level : ℝ) (y1 y0 : Ω → ι → ℝ) (x : ι → κ → ℝ)
    (w : ι → ℝ) (β : ℕ → κ → ℝ) (effect : ι → ℝ) (ht : TripleTrends P y1 y0 sg x β effect)
    (hf : ∀ c ∈ [1, 2, 3], Fits (F.ols c) (onSub sg c (normalize w)) (notB (pa4 sg c)) (onSub sg c x))
    (hpos : 0 < ∑ i with sg i = 4, w i) (r : Ω → ℝ × (ι → ℝ)) (h : ∀ ω, dddPanel F m hi level (y1 ω) (y0 ω) x w = .ok (r ω)) :
    Integrable (fun ω => (r ω).1) P ∧ ∫ ω, (r ω).1 ∂P = wavg w (fun i => sg i = 4) effect := by
  have hne : Nonempty Ω := P.nonempty_of_neZero
  obtain ⟨ω0⟩ := hne
  obtain ⟨hw, _, _, _⟩ := dddPanel_ok (h ω0)
  have hmw := normalize_pos hw hpos
  have hm' : m ≠ .ipw := by rcases hm with rfl | rfl <;> decide
  have hint : ∀ i, Integrable (fun ω => y1 ω i - y0 ω i) P := fun i => (ht.int1 i).sub (ht.int0 i)
  have hE : ∀ i, ∫ ω, (y1 ω i - y0 ω i) ∂P = (∫ ω, y1 ω i ∂P) - ∫ ω, y0 ω i ∂P := fun i => integral_sub (ht.int1 i) (ht.int0 i)
  have hw4 : ∑ i with sg i = 4, normalize w i ≠ 0 := by
    rw [sum_normalize]
    exact (div_pos hpos hmw).ne'
  have key := fun c (hc : c ∈ [1, 2, 3]) => comp_mean P F m hm' hi level c (by rintro rfl; simp at hc) (fun ω i => y1 ω i - y0 ω i) hint x (normalize w)
    (β c) (hf c hc) (fun i hi => by rw [hE, ht.comparison i (hi ▸ hc), hi]) hw4
  obtain ⟨a3, b3⟩ := key 3 (by simp)
  obtain ⟨a2, b2⟩ := key 2 (by simp)
  obtain ⟨a1, b1⟩ := key 1 (by simp)
  have hval : ∀ ω, (r ω).1 = compAtt m sg 3 (nuis F m hi level 3 (normalize w) x fun i => y1 ω i - y0 ω i) (normalize w) (fun i => y1 ω i - y0 ω i) +
      compAtt m sg 2 (nuis F m hi level 2 (normalize w) x fun i => y1 ω i - y0 ω i) (normalize w) (fun i => y1 ω i - y0 ω i) -
      compAtt m sg 1 (nuis F m hi level 1 (normalize w) x fun i => y1 ω i - y0 ω i) (normalize w) (fun i => y1 ω i - y0 ω i) := by
    intro ω
    obtain ⟨_, _, _, h'⟩ := dddPanel_ok (h ω)
    obtain ⟨r3, r2, r1, h3, h2, h1, he⟩ := allDid_ok h'
    rw [he, (compDid_ok h3).2.2, (compDid_ok h2).2.2, (compDid_ok h1).2.2]
    rfl
  simp only [hval]
  refine ⟨(a3.add a2).sub a1, ?_⟩
  refine (integral_sub (a3.add a2) a1).trans ?_
  rw [b1, show (∫ ω, (_ + _ : Ω → ℝ) ω ∂P) = _ from integral_add a3 a2, b3, b2]
  simp only [wavg_normalize _ _ hmw.ne', hE]
  unfold wavg
  rw [← add_div, ← sub_div, ← Finset.sum_add_distrib, ← Finset.sum_sub_distrib]
  congr 1
  refine Finset.sum_congr rfl fun i hi => ?_
  dsimp only
  rw [ht.treated i (Finset.mem_filter.1 hi).2]
  ring

/-! ## A case that meets the hypotheses -/

/-- Two units per subgroup, an intercept and one covariate. -/
def tS : Fin 8 → ℕ := ![4, 4, 3, 3, 2, 2, 1, 1]
def tX (i : Fin 8) : Fin 2 → ℝ := ![1, if i.val % 2 = 0 then 0 else 1]
def tB (k : ℕ) : Fin 2 → ℝ := ![k, 3 * k]
def tEff (i : Fin 8) : ℝ := if i = 0 then 4 else 8
def tY0 (e : ℝ) (i : Fin 8) : ℝ := e * i.val
noncomputable def tY1 (e : ℝ) (i : Fin 8) : ℝ :=
  2 * e + ∑ k, tX i k * (if tS i = 4 then tB 3 k + (tB 2 k - tB 1 k) else tB (tS i) k) + if tS i = 4 then tEff i else 0

noncomputable def tF : Triple.Fits tS (Fin 2) ℝ := ⟨fun _ => gramOLS, fun _ _ _ _ _ => 1 / 2, fun _ _ _ _ => 0, fun _ _ _ => 0⟩

theorem t_trends : TripleTrends coin tY1 tY0 tS tX tB tEff where
  int1 := fun i => (coin_int _).1
  int0 := fun i => (coin_int _).1
  comparison := by
    intro i hi
    have : tS i ≠ 4 := by intro h; rw [h] at hi; simp at hi
    rw [(coin_int _).2, (coin_int _).2]
    simp only [tY1, tY0, this, if_false]
    ring
  treated := by
    intro i hi
    rw [(coin_int _).2, (coin_int _).2]
    simp only [tY1, tY0, hi, if_true, Fin.sum_univ_two]
    ring

/-- Positive weights and covariates that separate coefficients give full rank. -/
theorem fullRank_of_pos {σ : Type*} [Fintype σ] (w : σ → ℝ) (sel : σ → Bool) (x : σ → κ → ℝ) (hw : ∀ i, sel i = true → 0 < w i)
    (hx : ∀ v : κ → ℝ, (∀ i, sel i = true → ∑ l, x i l * v l = 0) → v = 0) : FullRank w sel x := by
  intro v hv
  refine hx v fun i hi => ?_
  have h0 : ∑ i with sel i = true, w i * (∑ l, x i l * v l) ^ 2 = 0 := by
    have : ∑ i with sel i = true, w i * (∑ l, x i l * v l) ^ 2 = ∑ k, v k * ∑ i with sel i = true, w i * (∑ l, x i l * v l) * x i k := by
      have e : ∀ k, v k * ∑ i with sel i = true, w i * (∑ l, x i l * v l) * x i k = ∑ i with sel i = true, w i * (∑ l, x i l * v l) * (x i k * v k) := by
        intro k
        rw [Finset.mul_sum]
        exact Finset.sum_congr rfl fun i _ => by ring
      rw [Finset.sum_congr rfl fun k _ => e k, Finset.sum_comm]
      refine Finset.sum_congr rfl fun i _ => ?_
      rw [← Finset.mul_sum]
      ring
    rw [this]
    exact Finset.sum_eq_zero fun k _ => by rw [hv k, mul_zero]
  have hz := (Finset.sum_eq_zero_iff_of_nonneg fun i hi => mul_nonneg (hw i (Finset.mem_filter.1 hi).2).le (sq_nonneg _)).1 h0 i
    (Finset.mem_filter.2 ⟨Finset.mem_univ _, hi⟩)
  rcases mul_eq_zero.1 hz with h | h
  · exact absurd h (hw i hi).ne'
  · exact pow_eq_zero_iff (two_ne_zero) |>.1 h

theorem t_norm (i : Fin 8) : normalize (fun _ : Fin 8 => (1 : ℝ)) i = 1 := by simp [DR.normalize, DR.mean]

theorem t_fits (c : ℕ) (hc : c ∈ [1, 2, 3]) : Fits (tF.ols c) (onSub tS c (normalize fun _ => 1)) (notB (pa4 tS c)) (onSub tS c tX) := by
  refine gramOLS_fits _ _ _ (fullRank_of_pos _ _ _ (fun i _ => by rw [onSub, t_norm]; exact one_pos) fun v hv => ?_)
  obtain ⟨i, j, hi, hj, he, ho⟩ : ∃ i j : Fin 8, tS i = c ∧ tS j = c ∧ i.val % 2 = 0 ∧ j.val % 2 = 1 := by
    clear hv
    revert c
    decide
  have hc4 : c ≠ 4 := by rintro rfl; simp at hc
  have a := hv ⟨i, .inr hi⟩ (by simp [notB, pa4, hi, hc4])
  have b := hv ⟨j, .inr hj⟩ (by simp [notB, pa4, hj, hc4])
  simp [onSub, tX, Fin.sum_univ_two, he, ho] at a b
  rw [a, zero_add] at b
  funext k
  fin_cases k
  · exact a
  · exact b

theorem t_ok (e : ℝ) : ∃ r, dddPanel tF .dr (9 / 10) (9 / 10) (tY1 e) (tY0 e) tX (fun _ => 1) = .ok r := by
  have hT : ∀ c ∈ [1, 2, 3], ∀ dy, mean (Triple.wTreat tS c (nuis tF .dr (9 / 10) (9 / 10) c (normalize fun _ => 1) tX dy) (normalize fun _ => 1)) ≠ 0 := by
    intro c hc dy
    have hp : 0 < ∑ i, Triple.wTreat tS c (nuis tF .dr (9 / 10) (9 / 10) c (normalize fun _ => 1) tX dy) (normalize fun _ => 1) i := by
      refine Finset.sum_pos' (fun i _ => ?_) ⟨⟨0, .inl rfl⟩, Finset.mem_univ _, ?_⟩
      · unfold Triple.wTreat ind
        rw [t_norm]
        split_ifs <;> norm_num
      · unfold Triple.wTreat ind nuis pa4
        rw [t_norm]
        simp [tS]
    have : (0 : ℝ) < Fintype.card (Sub tS c) := by
      exact_mod_cast Fintype.card_pos_iff.2 (⟨⟨0, .inl rfl⟩⟩ : Nonempty (Sub tS c))
    exact (div_pos hp this).ne'
  have hC : ∀ c ∈ [1, 2, 3], ∀ dy, mean (Triple.wControl .dr tS c (nuis tF .dr (9 / 10) (9 / 10) c (normalize fun _ => 1) tX dy) (normalize fun _ => 1)) ≠ 0 := by
    intro c hc dy
    obtain ⟨j, hj⟩ : ∃ j : Fin 8, tS j = c := by revert c; decide
    have hp : 0 < ∑ i, Triple.wControl .dr tS c (nuis tF .dr (9 / 10) (9 / 10) c (normalize fun _ => 1) tX dy) (normalize fun _ => 1) i := by
      have hm : min (1 / 2 : ℝ) (9 / 10) = 1 / 2 := by norm_num
      refine Finset.sum_pos' (fun i _ => ?_) ⟨⟨j, .inr hj⟩, Finset.mem_univ _, ?_⟩
      · unfold Triple.wControl ind nuis
        simp only [t_norm, tF, hm]
        split_ifs <;> norm_num
      · unfold Triple.wControl ind nuis paComp
        rw [if_neg (by decide : Est.dr ≠ Est.reg)]
        simp only [t_norm, tF, hm, hj, if_neg (by decide : Est.dr ≠ Est.reg)]
        norm_num
    have : (0 : ℝ) < Fintype.card (Sub tS c) := by
      exact_mod_cast Fintype.card_pos_iff.2 (⟨⟨0, .inl rfl⟩⟩ : Nonempty (Sub tS c))
    exact (div_pos hp this).ne'
  unfold dddPanel
  rw [if_neg (by push Not; intro _; exact zero_le_one), if_neg (by push Not; decide), if_neg (by push Not; exact ⟨0, rfl⟩)]
  unfold allDid compDid
  simp only [if_neg (hT 3 (by simp) _), if_neg (hT 2 (by simp) _), if_neg (hT 1 (by simp) _), if_neg (hC 3 (by simp) _), if_neg (hC 2 (by simp) _),
    if_neg (hC 1 (by simp) _)]
  exact ⟨_, rfl⟩

example : ∃ r : ℝ → ℝ × (Fin 8 → ℝ), (∀ e, dddPanel tF .dr (9 / 10) (9 / 10) (tY1 e) (tY0 e) tX (fun _ => 1) = .ok (r e)) ∧
    ∫ e, (r e).1 ∂coin = 6 := by
  choose r hr using t_ok
  have hfil : (Finset.univ.filter fun i : Fin 8 => tS i = 4) = {0, 1} := by decide
  refine ⟨r, hr, (C253_ddd coin tF .dr (.inr rfl) _ _ tY1 tY0 tX _ tB tEff t_trends t_fits ?_ r hr).2.trans ?_⟩
  · rw [hfil]; simp
  · rw [wavg, hfil]
    norm_num [tEff]

end Verif.Ident
