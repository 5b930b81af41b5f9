import Verif.Ident.RegRC
import Verif.Ident.Ddd

set_option linter.unusedSectionVars false
set_option linter.unusedSimpArgs false

/-!
# C257: triple differences on repeated cross-sections when the outcome models are linear
-/

namespace Verif.Ident

open Verif.DR Verif.Triple MeasureTheory

variable {ι κ Ω : Type*} [Fintype ι] [Fintype κ] [DecidableEq κ] [MeasurableSpace Ω] {sg : ι → ℕ}

/-! ## Specification -/

/-- Triple-difference parallel trends with linear models: mean outcomes of subgroup `k ∈ {1, 2, 3}` are `x · β0 k` before and `x · β1 k` after; those of
subgroup 4 are `x · α` before and change by the trend of 3 plus the difference between the trends of 2 and 1, plus the effect `x · τ`. -/
structure TripleCells (P : Measure Ω) (y : Ω → ι → ℝ) (sg : ι → ℕ) (post : ι → Bool) (x : ι → κ → ℝ) (β0 β1 : ℕ → κ → ℝ) (α τ : κ → ℝ) : Prop where
  int : ∀ i, Integrable (fun ω => y ω i) P
  comparison : ∀ i, sg i ∈ [1, 2, 3] → ∫ ω, y ω i ∂P = ∑ k, x i k * if post i then β1 (sg i) k else β0 (sg i) k
  treated : ∀ i, sg i = 4 → ∫ ω, y ω i ∂P = ∑ k, x i k * (α k +
    if post i then (β1 3 k - β0 3 k) + ((β1 2 k - β0 2 k) - (β1 1 k - β0 1 k)) + τ k else 0)

/-- Every subgroup has weight in every period. -/
def EightCells (w : ι → ℝ) (sg : ι → ℕ) (post : ι → Bool) : Prop :=
  ∀ c ∈ [1, 2, 3, 4], ∀ b : Bool, 0 < ∑ i with sg i = c ∧ post i = b, w i

/-! ## Proof -/

theorem dddRC_ok {F : FitsRC sg κ ℝ} {m : Est} {hi level : ℝ} {y : ι → ℝ} {post : ι → Bool} {x : ι → κ → ℝ} {w0 : ι → ℝ}
    {r : ℝ × (ι → ℝ)} (h : dddRC F m hi level y post x w0 = .ok r) : (∀ i, 0 ≤ w0 i) ∧ r.1 =
      compAttRC F m hi level 3 (DR.normalize w0) x y post + compAttRC F m hi level 2 (DR.normalize w0) x y post -
        compAttRC F m hi level 1 (DR.normalize w0) x y post := by
  unfold dddRC at h
  split_ifs at h with h1 h2 h3
  push Not at h1
  refine ⟨h1, ?_⟩
  dsimp only at h
  have key : ∀ c, (∃ e, compDidRC F m hi level c (DR.normalize w0) x y post = .error e) ∨
      ∃ f, compDidRC F m hi level c (DR.normalize w0) x y post = .ok (compAttRC F m hi level c (DR.normalize w0) x y post, f) := by
    intro c
    unfold compDidRC
    split
    · exact .inl ⟨_, rfl⟩
    · exact .inr ⟨_, rfl⟩
  rcases key 3 with ⟨e, h3⟩ | ⟨f3, h3⟩
  · rw [h3] at h; simp [bind, Except.bind] at h
  rcases key 2 with ⟨e, h2⟩ | ⟨f2, h2⟩
  · rw [h3, h2] at h; simp [bind, Except.bind] at h
  rcases key 1 with ⟨e, h1⟩ | ⟨f1, h1⟩
  · rw [h3, h2, h1] at h; simp [bind, Except.bind] at h
  rw [h3, h2, h1] at h
  simp only [bind, Except.bind, pure, Except.pure, Except.ok.injEq] at h
  rw [← h]
  rfl

/-- The sum over a cell of one comparison. -/
theorem sub_cell (c : ℕ) (hc : c ≠ 4) (w : ι → ℝ) (post : ι → Bool) (pre treat : Bool) :
    ∑ i : Sub sg c with cellSel (pa4 sg c) (onSub sg c post) pre treat i = true, onSub sg c w i =
      ∑ i with sg i = (if treat then 4 else c) ∧ post i = !pre, w i := by
  refine Finset.sum_bij (fun i _ => i.1) ?_ (fun a _ b _ h => Subtype.ext h) ?_ (fun _ _ => rfl)
  · intro i hi
    simp only [cellSel, pa4, onSub, Finset.mem_filter, Finset.mem_univ, true_and, Bool.and_eq_true, beq_iff_eq] at hi ⊢
    refine ⟨?_, hi.2⟩
    have := hi.1
    cases treat
    · simp at this
      simpa using i.2.resolve_left this
    · simpa using this
  · intro i hi
    simp only [Finset.mem_filter, Finset.mem_univ, true_and] at hi
    cases treat
    · simp only [Bool.false_eq_true, if_false] at hi
      exact ⟨⟨i, .inr hi.1⟩, by simp [cellSel, pa4, onSub, hi.1, hi.2, hc], rfl⟩
    · simp only [if_true] at hi
      exact ⟨⟨i, .inl hi.1⟩, by simp [cellSel, pa4, onSub, hi.1, hi.2], rfl⟩

/-- The effect coefficients of one comparison. -/
def compEffect (β0 β1 : ℕ → κ → ℝ) (τ : κ → ℝ) (c : ℕ) (k : κ) : ℝ :=
  (β1 3 k - β0 3 k) + ((β1 2 k - β0 2 k) - (β1 1 k - β0 1 k)) + τ k - (β1 c k - β0 c k)

theorem comp_rc_mean (P : Measure Ω) (F : FitsRC sg κ ℝ) (hi level : ℝ) (c : ℕ) (hc : c ∈ [1, 2, 3]) (y : Ω → ι → ℝ) (post : ι → Bool) (x : ι → κ → ℝ)
    (w : ι → ℝ) (hw : ∀ i, 0 ≤ w i) (h8 : EightCells w sg post) (β0 β1 : ℕ → κ → ℝ) (α τ : κ → ℝ) (ht : TripleCells P y sg post x β0 β1 α τ)
    (hf : ∀ treat, FitsCells (F.ols c) (onSub sg c w) (pa4 sg c) (onSub sg c post) (onSub sg c x) treat) :
    Integrable (fun ω => compAttRC F .dr hi level c w x (y ω) post) P ∧
      ∫ ω, compAttRC F .dr hi level c w x (y ω) post ∂P = wavg w (fun i => sg i = 4) fun i => ∑ k, x i k * compEffect β0 β1 τ c k := by
  have hc4 : c ≠ 4 := by rintro rfl; simp at hc
  have hcells : FourCells (onSub sg c w) (pa4 sg c) (onSub sg c post) := by
    refine ⟨fun i => hw i.1, fun pre treat => ?_⟩
    rw [sub_cell c hc4]
    refine h8 _ ?_ _
    cases treat
    · simp only [Bool.false_eq_true, if_false]
      exact List.mem_of_mem_dropLast (l := [1, 2, 3, 4]) hc
    · simp
  have hlin : LinearCells P (fun ω => onSub sg c (y ω)) (pa4 sg c) (onSub sg c post) (onSub sg c x) (β0 c) (β1 c) (fun k => α k - β0 c k)
      (compEffect β0 β1 τ c) := by
    refine ⟨fun i => ht.int i.1, fun i => ?_⟩
    rcases i.2 with h | h
    · refine (ht.treated i.1 h).trans (Finset.sum_congr rfl fun k _ => ?_)
      unfold onSub pa4 compEffect
      by_cases hp : post i.1 = true
      · simp only [h, hp, if_true, decide_true, Bool.and_self]
        ring
      · simp [h, hp]
    · refine (ht.comparison i.1 (by rw [h]; exact hc)).trans (Finset.sum_congr rfl fun k _ => ?_)
      unfold onSub pa4
      by_cases hp : post i.1 = true <;> simp [h, hp, hc4]
  obtain ⟨a, b⟩ := efficient_mean P (F.ols c) (fun ω => onSub sg c (y ω)) (pa4 sg c) (onSub sg c post) (onSub sg c x) (onSub sg c w) _ _ _ _ hcells hlin
    (onSub sg c w) 1 one_ne_zero (fun i => (div_one _).symm) (hf false) (hf true) (rcKeep F .dr level c w x) (fun i hi => by simp [rcKeep, hi])
    (rcPs F .dr hi c w x)
  refine ⟨a, b.trans ?_⟩
  rw [← wavg_sub (sg := sg) c 4 (.inl rfl) w]
  unfold wavg pa4 onSub
  simp only [decide_eq_true_eq]

/-- **C257.**  Whenever `ddd_rc` with the default `dr` method returns, its estimate is unbiased for the weighted mean effect on the observations of
subgroup 4, whatever the propensity scores and however the covariates of the subgroups change over time. -/
theorem C257_ddd_rc (P : Measure Ω) [IsProbabilityMeasure P] (F : FitsRC sg κ ℝ) (hi level : ℝ) (y : Ω → ι → ℝ) (post : ι → Bool) (x : ι → κ → ℝ)
    (w : ι → ℝ) (h8 : EightCells w sg post) (β0 β1 : ℕ → κ → ℝ) (α τ : κ → ℝ) (ht : TripleCells P y sg post x β0 β1 α τ)
    (hf : ∀ c ∈ [1, 2, 3], ∀ treat, FitsCells (F.ols c) (onSub sg c (DR.normalize w)) (pa4 sg c) (onSub sg c post) (onSub sg c x) treat)
    (r : Ω → ℝ × (ι → ℝ)) (h : ∀ ω, dddRC F .dr hi level (y ω) post x w = .ok (r ω)) :
    Integrable (fun ω => (r ω).1) P ∧ ∫ ω, (r ω).1 ∂P = wavg w (fun i => sg i = 4) fun i => ∑ k, x i k * τ k := by
  obtain ⟨ω0⟩ : Nonempty Ω := P.nonempty_of_neZero
  have hw := (dddRC_ok (h ω0)).1
  have hp4 : 0 < ∑ i with sg i = 4, w i := by
    refine lt_of_lt_of_le (h8 4 (by simp) true) (Finset.sum_le_sum_of_subset_of_nonneg ?_ fun i _ _ => hw i)
    intro i hi
    simp only [Finset.mem_filter, Finset.mem_univ, true_and] at hi ⊢
    exact hi.1
  have hmw := normalize_pos hw hp4
  have hsum : ∀ S : Finset ι, ∑ i ∈ S, DR.normalize w i = (∑ i ∈ S, w i) / DR.mean w := fun S => by rw [Finset.sum_div]; rfl
  have h8' : EightCells (DR.normalize w) sg post := by
    intro c hc b
    rw [hsum]
    exact div_pos (h8 c hc b) hmw
  have key := fun c (hc : c ∈ [1, 2, 3]) => comp_rc_mean P F hi level c hc y post x (DR.normalize w) (fun i => div_nonneg (hw i) hmw.le) h8' β0 β1 α τ ht
    (hf c hc)
  obtain ⟨a3, b3⟩ := key 3 (by simp)
  obtain ⟨a2, b2⟩ := key 2 (by simp)
  obtain ⟨a1, b1⟩ := key 1 (by simp)
  simp only [fun ω => (dddRC_ok (h ω)).2]
  refine ⟨(a3.add a2).sub a1, ?_⟩
  refine (integral_sub (a3.add a2) a1).trans ?_
  rw [b1, show (∫ ω, (_ + _ : Ω → ℝ) ω ∂P) = _ from integral_add a3 a2, b3, b2]
  simp only [wavg_normalize _ _ hmw.ne', wavg_dot]
  rw [← Finset.sum_add_distrib, ← Finset.sum_sub_distrib]
  refine Finset.sum_congr rfl fun k _ => ?_
  unfold compEffect
  ring

/-! ## A case that meets the hypotheses -/

/-- Two observations per subgroup and period, an intercept and one covariate which shifts between the periods. -/
def uS (i : Fin 16) : ℕ := 1 + i.val % 4
def uPost (i : Fin 16) : Bool := decide (8 ≤ i.val)
def uX (i : Fin 16) : Fin 2 → ℝ := ![1, if i.val % 8 < 4 then 0 else if 8 ≤ i.val then 3 else 1]
def uB0 (k : ℕ) : Fin 2 → ℝ := ![k, 3 * k]
def uB1 (k : ℕ) : Fin 2 → ℝ := ![k ^ 2, k]
def uA : Fin 2 → ℝ := ![7, 5]
def uT : Fin 2 → ℝ := ![2, 4]
noncomputable def uY (e : ℝ) (i : Fin 16) : ℝ := e * i.val + ∑ k, uX i k * if uS i = 4 then
  uA k + (if uPost i then (uB1 3 k - uB0 3 k) + ((uB1 2 k - uB0 2 k) - (uB1 1 k - uB0 1 k)) + uT k else 0)
  else if uPost i then uB1 (uS i) k else uB0 (uS i) k

noncomputable def uF : FitsRC uS (Fin 2) ℝ := ⟨fun _ => gramOLS, fun _ _ _ _ _ => 1 / 2, fun _ _ _ _ => 0, fun _ _ _ => 0⟩

theorem u_cells : EightCells (fun _ => 1) uS uPost := by
  intro c hc b
  rw [Finset.sum_const, nsmul_eq_mul, mul_one]
  have : 0 < (Finset.univ.filter fun i : Fin 16 => uS i = c ∧ uPost i = b).card := by
    revert c b
    decide
  exact_mod_cast this

theorem u_trends : TripleCells coin uY uS uPost uX uB0 uB1 uA uT where
  int := fun i => (coin_int _).1
  comparison := by
    intro i hi
    have : uS i ≠ 4 := by intro h; rw [h] at hi; simp at hi
    rw [(coin_int _).2]
    simp only [uY, this, if_false]
    ring
  treated := by
    intro i hi
    rw [(coin_int _).2]
    simp only [uY, hi, if_true]
    ring

theorem u_norm (i : Fin 16) : DR.normalize (fun _ : Fin 16 => (1 : ℝ)) i = 1 := by simp [DR.normalize, DR.mean]

theorem u_fits (c : ℕ) (hc : c ∈ [1, 2, 3]) (treat : Bool) :
    FitsCells (uF.ols c) (onSub uS c (DR.normalize fun _ => (1 : ℝ))) (pa4 uS c) (onSub uS c uPost) (onSub uS c uX) treat := by
  intro pre
  refine gramOLS_fits _ _ _ (fullRank_of_pos _ _ _ (fun i _ => by rw [onSub, u_norm]; exact one_pos) fun v hv => ?_)
  obtain ⟨i, j, hi, hj, hpi, hpj, he, ho⟩ : ∃ i j : Fin 16, uS i = (if treat then 4 else c) ∧ uS j = (if treat then 4 else c) ∧ uPost i = !pre ∧
      uPost j = !pre ∧ i.val % 8 < 4 ∧ ¬ j.val % 8 < 4 := by
    clear hv
    revert c treat pre
    decide
  have hc4 : c ≠ 4 := by rintro rfl; simp at hc
  have mem : ∀ k : Fin 16, uS k = (if treat then 4 else c) → uS k = 4 ∨ uS k = c := by
    intro k hk
    cases treat
    · exact .inr hk
    · exact .inl hk
  have sel : ∀ (k : Fin 16) (hk : uS k = (if treat then 4 else c)), uPost k = !pre →
      cellSel (pa4 uS c) (onSub uS c uPost) pre treat ⟨k, mem k hk⟩ = true := by
    intro k hk hp
    cases treat <;> simp [cellSel, pa4, onSub, hp, hk, hc4] <;> simpa using hk
  have a := hv ⟨i, mem i hi⟩ (sel i hi hpi)
  have b := hv ⟨j, mem j hj⟩ (sel j hj hpj)
  simp [onSub, uX, Fin.sum_univ_two, he, ho] at a b
  rw [a, zero_add] at b
  have b' : v 1 = 0 := by
    split_ifs at b <;> linarith
  funext k
  fin_cases k
  · exact a
  · exact b'

theorem u_ok (e : ℝ) : ∃ r, dddRC uF .dr (9 / 10) (9 / 10) (uY e) uPost uX (fun _ => 1) = .ok r := by
  have hm : min (1 / 2 : ℝ) (9 / 10) = 1 / 2 := by norm_num
  have hG : ∀ c ∈ [1, 2, 3], rcGuard .dr (pa4 uS c) (rcKeep uF .dr (9 / 10) c (DR.normalize fun _ => (1 : ℝ)) uX) (onSub uS c uPost)
      (rcPs uF .dr (9 / 10) c (DR.normalize fun _ => (1 : ℝ)) uX) (onSub uS c (DR.normalize fun _ => (1 : ℝ))) = none := by
    intro c hc
    have hc4 : c ≠ 4 := by rintro rfl; simp at hc
    have hcard : (0 : ℝ) < Fintype.card (Sub uS c) := by
      exact_mod_cast Fintype.card_pos_iff.2 (⟨⟨3, .inl rfl⟩⟩ : Nonempty (Sub uS c))
    have i01 : ∀ (b : Sub uS c → Bool) i, (0 : ℝ) ≤ ind b i ∧ (ind b i : ℝ) ≤ 1 := by
      intro b i
      unfold ind
      split_ifs <;> norm_num
    have q01 : ∀ (pre : Bool) i, (0 : ℝ) ≤ (if pre then preK (onSub uS c uPost) else postK (onSub uS c uPost)) i := by
      intro pre i
      cases pre
      · exact (i01 _ i).1
      · exact sub_nonneg.2 (i01 _ i).2
    have hT : ∀ pre : Bool, DR.mean (wTreatRC (pa4 uS c) (rcKeep uF .dr (9 / 10) c (DR.normalize fun _ => (1 : ℝ)) uX) (onSub uS c (DR.normalize fun _ => (1 : ℝ)))
        (if pre then preK (onSub uS c uPost) else postK (onSub uS c uPost))) ≠ 0 := by
      intro pre
      obtain ⟨j, hj, hp⟩ : ∃ j : Fin 16, uS j = 4 ∧ uPost j = !pre := by cases pre <;> decide
      refine (div_pos (Finset.sum_pos' (fun i _ => ?_) ⟨⟨j, .inl hj⟩, Finset.mem_univ _, ?_⟩) hcard).ne'
      · exact mul_nonneg (mul_nonneg (mul_nonneg (i01 _ _).1 (by rw [onSub, u_norm]; exact zero_le_one)) (i01 _ _).1) (q01 _ _)
      · unfold wTreatRC preK postK ind rcKeep pa4 onSub
        rw [u_norm]
        cases pre <;> simp [hj] <;> simp at hp <;> simp [hp]
    have hC : ∀ pre : Bool, DR.mean (wContRC (pa4 uS c) (rcKeep uF .dr (9 / 10) c (DR.normalize fun _ => (1 : ℝ)) uX) (rcPs uF .dr (9 / 10) c (DR.normalize fun _ => (1 : ℝ)) uX)
        (onSub uS c (DR.normalize fun _ => (1 : ℝ))) (if pre then preK (onSub uS c uPost) else postK (onSub uS c uPost))) ≠ 0 := by
      intro pre
      obtain ⟨j, hj, hp⟩ : ∃ j : Fin 16, uS j = c ∧ uPost j = !pre := by clear hT hcard hc4 i01 q01; revert c pre; decide
      refine (div_pos (Finset.sum_pos' (fun i _ => ?_) ⟨⟨j, .inr hj⟩, Finset.mem_univ _, ?_⟩) hcard).ne'
      · have hps : rcPs uF .dr (9 / 10) c (DR.normalize fun _ => (1 : ℝ)) uX i = 1 / 2 := by
          unfold rcPs
          rw [if_neg (by decide : Est.dr ≠ Est.reg)]
          exact hm
        have h1 := (i01 (pa4 uS c) i).2
        unfold wContRC
        rw [hps]
        exact div_nonneg (mul_nonneg (mul_nonneg (mul_nonneg (mul_nonneg (i01 _ _).1 (by rw [onSub, u_norm]; exact zero_le_one)) (by norm_num))
          (sub_nonneg.2 h1)) (q01 _ _)) (by norm_num)
      · unfold wContRC preK postK ind rcKeep rcPs pa4 onSub
        rw [u_norm, if_neg (by decide : Est.dr ≠ Est.reg), if_neg (by decide : Est.dr ≠ Est.reg)]
        simp only [uF, hm, hj]
        cases pre <;> simp at hp <;> simp [hp, hc4] <;> norm_num
    have t1 := hT true
    have t2 := hT false
    have c1 := hC true
    have c2 := hC false
    simp only [if_true, Bool.false_eq_true, if_false] at t1 t2 c1 c2
    unfold rcGuard
    rw [if_neg (by simp only [t1, t2, or_self, not_false_eq_true]), if_neg (by simp only [c1, c2, or_self, and_false, not_false_eq_true])]
  unfold dddRC
  rw [if_neg (by push Not; intro _; exact zero_le_one), if_neg (by push Not; decide), if_neg (by push Not; exact ⟨3, rfl⟩)]
  unfold compDidRC
  simp only [hG 3 (by simp), hG 2 (by simp), hG 1 (by simp)]
  exact ⟨_, rfl⟩

/-- The mean effect on the four observations of subgroup 4: `2 + 4 · (0 + 1 + 0 + 3) / 4`. -/
example : ∃ r : ℝ → ℝ × (Fin 16 → ℝ), (∀ e, dddRC uF .dr (9 / 10) (9 / 10) (uY e) uPost uX (fun _ => 1) = .ok (r e)) ∧ ∫ e, (r e).1 ∂coin = 6 := by
  choose r hr using u_ok
  have hfil : (Finset.univ.filter fun i : Fin 16 => uS i = 4) = {3, 7, 11, 15} := by decide
  refine ⟨r, hr, (C257_ddd_rc coin uF _ _ uY uPost uX _ u_cells uB0 uB1 uA uT u_trends u_fits r hr).2.trans ?_⟩
  rw [wavg, hfil]
  simp [Fin.sum_univ_two, uX, uT]
  norm_num

end Verif.Ident
