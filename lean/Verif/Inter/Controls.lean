import Verif.Inter.ControlsModel
import Verif.Inter.VarCluster

/-! # Covariates of `did_multiplegt` (C144-C146) -/

set_option linter.unusedSectionVars false
set_option linter.unusedSimpArgs false

namespace Verif.Inter

open Finset Matrix

variable {ι β γ J K : Type*} [Fintype ι] [DecidableEq ι] [DecidableEq β] [DecidableEq γ] [Fintype J] [DecidableEq J]
  [Field K] [LinearOrder K]

/-- The same data where the outcome of a row also holds `c_j` times covariate `j` of the row and a constant of the unit. -/
abbrev Frame.addCovs (P : Frame ι β K) (X : Covs P J) (a : ι → K) (c : J → K) : Frame ι β K :=
  { P with y := fun i k => (P.y i k).map fun y => y + (a i + ∑ j, c j * (X j i k).getD 0) }

/-- The regression of a baseline level has a unique solution: more than one never-switching unit, enough rows, no collinear
covariate changes. -/
def Identified (P : Frame ι β K) (X : Covs P J) (h : ℕ) (D : P.Row → Option K) (d : K) : Prop :=
  isLevel P d = true ∧ enough P X h D d = true ∧ (gramX P X h D d).det ≠ 0

theorem addCovs_diff (P : Frame ι β K) (X : Covs P J) (hX : ∀ j i k, X j i k ≠ none) (a : ι → K) (c : J → K) (h : ℕ)
    (r : P.Row) : (P.addCovs X a c).diff false h r =
      (P.diff false h r).map fun y => y + ∑ j, c j * (xdiff P X h j r).getD 0 := by
  unfold Frame.diff Frame.shift
  simp only [Bool.false_eq_true, if_false]
  by_cases hh : h ≤ r.2.1
  · rw [dif_pos hh, dif_pos hh]
    have hx : ∀ j, (xdiff P X h j r).getD 0 = (X j r.1 r.2).getD 0 -
        (X j r.1 ⟨r.2.1 - h, lt_of_le_of_lt (Nat.sub_le _ _) r.2.2⟩).getD 0 := by
      intro j
      unfold xdiff xlag
      rw [dif_pos hh]
      have h1 := hX j r.1 r.2
      have h2 := hX j r.1 ⟨r.2.1 - h, lt_of_le_of_lt (Nat.sub_le _ _) r.2.2⟩
      cases e1 : X j r.1 r.2 with
      | none => exact absurd e1 h1
      | some u =>
        cases e2 : X j r.1 ⟨r.2.1 - h, lt_of_le_of_lt (Nat.sub_le _ _) r.2.2⟩ with
        | none => exact absurd e2 h2
        | some w => simp [sub?]
    simp only [hx, mul_sub, sum_sub_distrib]
    cases P.y r.1 r.2 <;> cases P.y r.1 ⟨r.2.1 - h, lt_of_le_of_lt (Nat.sub_le _ _) r.2.2⟩ <;> simp [sub?]
    ring
  · rw [dif_neg hh, dif_neg hh]
    simp [sub?]

section
variable (P : Frame ι β K) (X : Covs P J) (lin : Matrix J J K → (J → K) → J → K) (h : ℕ) (D D' : P.Row → Option K)

theorem regRows_congr (H : ∀ r, (D' r).isSome = (D r).isSome) (d : K) : regRows P D' d = regRows P D d := by
  unfold regRows
  refine filter_congr fun r _ => ?_
  have := H r
  cases h1 : D' r <;> cases h2 : D r <;> simp_all

/-- The regression coefficients pick up a linear combination of the covariates. -/
theorem theta_add (hlin : ∀ A b, A.det ≠ 0 → A *ᵥ lin A b = b) (c : J → K)
    (hD : ∀ r, D' r = (D r).map fun y => y + ∑ j, c j * (xdiff P X h j r).getD 0) (d : K) (hI : Identified P X h D d) :
    theta P X lin h D' d = theta P X lin h D d + c := by
  have H : ∀ r, (D' r).isSome = (D r).isSome := fun r => by rw [hD]; simp
  have hr := regRows_congr P D D' H d
  have hv : validRows P X h D' d = validRows P X h D d := by unfold validRows; rw [hr]
  have hg : gramX P X h D' d = gramX P X h D d := by unfold gramX; rw [hv]
  have he : enough P X h D' d = enough P X h D d := by unfold enough; rw [hr, hv]
  have hm : momX P X h D' d = momX P X h D d + gramX P X h D d *ᵥ c := by
    funext j
    simp only [Pi.add_apply, mulVec, dotProduct]
    unfold momX gramX
    rw [hv]
    simp only [sum_mul]
    rw [sum_comm, ← sum_add_distrib]
    refine sum_congr rfl fun r hr' => ?_
    rw [hD]
    have hn : D r ≠ none := by
      have := (mem_filter.1 hr').1
      unfold regRows at this
      exact (mem_filter.1 this).2.2.2
    cases hd : D r with
    | none => exact absurd hd hn
    | some y =>
      simp only [Option.map_some, Option.getD_some, mul_add, mul_sum]
      congr 1
      refine sum_congr rfl fun k _ => ?_
      ring
  unfold theta
  rw [he, if_pos hI.2.1, if_pos hI.2.1, hg, hm]
  have e1 := hlin (gramX P X h D d) (momX P X h D d + gramX P X h D d *ᵥ c) hI.2.2
  have e2 := hlin (gramX P X h D d) (momX P X h D d) hI.2.2
  have hinj := Matrix.mulVec_injective_of_isUnit
    ((Matrix.isUnit_iff_isUnit_det _).2 (isUnit_iff_ne_zero.2 hI.2.2))
  apply hinj
  rw [e1, mulVec_add, e2]

/-- Then the adjusted changes are the same. -/
theorem adjD_add (hlin : ∀ A b, A.det ≠ 0 → A *ᵥ lin A b = b) (c : J → K)
    (hD : ∀ r, D' r = (D r).map fun y => y + ∑ j, c j * (xdiff P X h j r).getD 0) (r : P.Row)
    (hI : Identified P X h D (P.dsq r.1)) : adjD P X lin h D' r = adjD P X lin h D r := by
  unfold adjD
  rw [if_pos hI.1, if_pos hI.1, theta_add P X lin h D D' hlin c hD _ hI, hD]
  cases D r with
  | none => rfl
  | some y =>
    simp only [Option.map_some, Pi.add_apply, add_mul, sum_add_distrib]
    congr 1
    ring

end

/-- C144.  Effects, covariates observed, every baseline level with an identified regression: adding unit constants and any fixed
linear combination of the covariates to the outcome changes no adjusted outcome change, hence no estimate. -/
theorem C144_absorbs (P : Frame ι β K) (X : Covs P J) (hX : ∀ j i k, X j i k ≠ none)
    (lin : Matrix J J K → (J → K) → J → K) (hlin : ∀ A b, A.det ≠ 0 → A *ᵥ lin A b = b) (o : Opt K) (h : ℕ)
    (hI : ∀ i, Identified P X h (P.diff false h) (P.dsq i)) (a : ι → K) (c : J → K) :
    (∀ r, adjD (P.addCovs X a c) X lin h ((P.addCovs X a c).diff false h) r = adjD P X lin h (P.diff false h) r) ∧
    estimateD (P.addCovs X a c) o h (adjD (P.addCovs X a c) X lin h ((P.addCovs X a c).diff false h)) =
      estimateD P o h (adjD P X lin h (P.diff false h)) := by
  have h1 : ∀ r, adjD (P.addCovs X a c) X lin h ((P.addCovs X a c).diff false h) r = adjD P X lin h (P.diff false h) r :=
    fun r => adjD_add P X lin h (P.diff false h) ((P.addCovs X a c).diff false h) hlin c
      (addCovs_diff P X hX a c h) r (hI r.1)
  refine ⟨h1, ?_⟩
  have h2 : adjD (P.addCovs X a c) X lin h ((P.addCovs X a c).diff false h) = adjD P X lin h (P.diff false h) := funext h1
  rw [h2]
  rfl

/-- C144.  An outcome that is a unit constant plus a fixed linear combination of the covariates has estimated effect 0 at every
horizon. -/
theorem C144_explained (P : Frame ι β K) (X : Covs P J) (hX : ∀ j i k, X j i k ≠ none)
    (lin : Matrix J J K → (J → K) → J → K) (hlin : ∀ A b, A.det ≠ 0 → A *ᵥ lin A b = b) (o : Opt K) (h : ℕ)
    (a : ι → K) (c : J → K) (hy : ∀ i k, P.y i k = some (a i + ∑ j, c j * (X j i k).getD 0))
    (hI : ∀ i, Identified P X h (P.diff false h) (P.dsq i)) :
    estimateD P o h (adjD P X lin h (P.diff false h)) = 0 := by
  have hz : ∀ r, (adjD P X lin h (P.diff false h) r).getD 0 = 0 := by
    -- remove the combination again: the remaining outcome is 0 on every row
    intro r
    set Q := P.addCovs X (fun i => -a i) (fun j => -c j) with hQ
    have hQy : ∀ i k, Q.y i k = some 0 := by
      intro i k
      show (P.y i k).map _ = _
      rw [hy]
      simp only [Option.map_some, neg_mul, sum_neg_distrib, Option.some.injEq]
      ring
    have e := (C144_absorbs P X hX lin hlin o h hI (fun i => -a i) (fun j => -c j)).1 r
    rw [← e]
    have hQd : ∀ r, Q.diff false h r = none ∨ Q.diff false h r = some 0 := by
      intro r
      unfold Frame.diff Frame.shift
      simp only [Bool.false_eq_true, if_false]
      by_cases hh : h ≤ r.2.1
      · rw [dif_pos hh, hQy, hQy]; right; simp [sub?]
      · rw [dif_neg hh]; left; simp [sub?]
    have hth : ∀ d, Identified Q X h (Q.diff false h) d → theta Q X lin h (Q.diff false h) d = 0 := by
      intro d hId
      unfold theta
      rw [if_pos hId.2.1]
      have hm : momX Q X h (Q.diff false h) d = 0 := by
        funext j
        unfold momX
        refine sum_eq_zero fun s _ => ?_
        rcases hQd s with h0 | h0 <;> rw [h0] <;> simp
      have e1 := hlin _ (momX Q X h (Q.diff false h) d) hId.2.2
      have hinj := Matrix.mulVec_injective_of_isUnit
        ((Matrix.isUnit_iff_isUnit_det _).2 (isUnit_iff_ne_zero.2 hId.2.2))
      apply hinj
      rw [e1, hm, mulVec_zero]
    have hIQ : Identified Q X h (Q.diff false h) (Q.dsq r.1) := by
      have hIr := hI r.1
      have hDQ := addCovs_diff P X hX (fun i => -a i) (fun j => -c j) h
      have H : ∀ r, (Q.diff false h r).isSome = (P.diff false h r).isSome := fun r => by
        have e := hDQ r
        show ((P.addCovs X (fun i => -a i) (fun j => -c j)).diff false h r).isSome = _
        rw [e]; simp
      have hr : regRows Q (Q.diff false h) (Q.dsq r.1) = regRows P (P.diff false h) (P.dsq r.1) :=
        regRows_congr P (P.diff false h) (Q.diff false h) H (P.dsq r.1)
      have hv : validRows Q X h (Q.diff false h) (Q.dsq r.1) = validRows P X h (P.diff false h) (P.dsq r.1) := by
        unfold validRows; rw [hr]; rfl
      refine ⟨hIr.1, ?_, ?_⟩
      · unfold enough; rw [hr, hv]; exact hIr.2.1
      · have : gramX Q X h (Q.diff false h) (Q.dsq r.1) = gramX P X h (P.diff false h) (P.dsq r.1) := by
          unfold gramX; rw [hv]; rfl
        rw [this]; exact hIr.2.2
    unfold adjD
    rw [if_pos hIQ.1, hth _ hIQ]
    rcases hQd r with h0 | h0 <;> rw [h0] <;> simp
  unfold estimateD
  have : ∀ r, ((contrastD P o h (adjD P X lin h (P.diff false h)) r).map fun x =>
      scaleGN P o h (adjD P X lin h (P.diff false h)) * P.w r.1 r.2 * x *
        (adjD P X lin h (P.diff false h) r).getD 0).getD 0 = 0 := by
    intro r
    rw [hz]
    cases contrastD P o h (adjD P X lin h (P.diff false h)) r <;> simp
  simp only [this]
  simp

/-! ## Examples -/

/-- One covariate: the exact solution of a 1 x 1 system. -/
def lin1 (A : Matrix (Fin 1) (Fin 1) ℚ) (b : Fin 1 → ℚ) : Fin 1 → ℚ := fun _ => b 0 / A 0 0

theorem lin1_solves : ∀ A b, A.det ≠ 0 → A *ᵥ lin1 A b = b := by
  intro A b hA
  rw [Matrix.det_fin_one] at hA
  funext j
  rw [Subsingleton.elim j 0]
  simp only [mulVec, dotProduct, univ_unique, Fin.default_eq_zero, sum_singleton, lin1]
  field_simp

/-- A covariate on the panel `exB`. -/
def exX : Covs exB.frame (Fin 1) := fun _ i k => some (![![1, 4, 2, 8], ![5, 7, 1, 1], ![2, 3, 5, 4], ![1, 1, 3, 7]] i k)

example : (∀ j i k, exX j i k ≠ none) ∧ (∀ i, isLevel exB.frame (exB.frame.dsq i) = true ∧
    enough exB.frame exX 1 (exB.frame.diff false 1) (exB.frame.dsq i) = true ∧
    gramX exB.frame exX 1 (exB.frame.diff false 1) (exB.frame.dsq i) 0 0 ≠ 0) ∧
    estimateD exB.frame (exB.opt (1 / 10)) 1 (adjD exB.frame exX lin1 1 (exB.frame.diff false 1)) ≠
      estimateD exB.frame (exB.opt (1 / 10)) 1 (exB.frame.diff false 1) := by decide +kernel

/-- Four units, periods 1..4, the switcher switches at 3 so that it has a placebo. -/
def exP : Balanced (Fin 3) ℕ ℚ where
  t0 := 1
  T := 4
  Y := fun i t => if i = 0 then [1, 4, 2, 8].getD (t - 1).toNat 0 else if i = 1 then [2, 3, 5, 4].getD (t - 1).toNat 0
    else [1, 1, 3, 7].getD (t - 1).toNat 0
  F := ![((3 : ℤ) : WithTop ℤ), ⊤, ⊤]
  cell := fun _ => 0
  S := ![1, 0, 0]
  D := fun i t => if i = 0 ∧ 3 ≤ t then 1 else 0
  dsq := fun _ => 0
  hF := by decide +kernel

/-- The outcome of `exP` as the covariate. -/
def exPX : Covs exP.frame (Fin 1) := fun _ i k => exP.frame.y i k

/-- C144 (violated for placebos).  The outcome IS the covariate, so nothing is left to explain; the effects are 0 as they should
be, but the placebo is not: it uses the outcome change from `F-1` back to `F-2` and the covariate change from `F-1` to `F`. -/
theorem C144_placebo_violated :
    estimateD exP.frame (exP.opt (1 / 10)) 1 (adjD exP.frame exPX lin1 1 (exP.frame.diff false 1)) = 0 ∧
    estimateD exP.frame (exP.opt (1 / 10)) 1 (adjD exP.frame exPX lin1 1 (exP.frame.diff true 1)) ≠ 0 := by decide +kernel

/-- `exP` with one never-switcher only. -/
def exP1 : Balanced (Fin 2) ℕ ℚ where
  t0 := 1
  T := 4
  Y := fun i t => if i = 0 then [1, 4, 2, 8].getD (t - 1).toNat 0 else [2, 3, 5, 4].getD (t - 1).toNat 0
  F := ![((3 : ℤ) : WithTop ℤ), ⊤]
  cell := fun _ => 0
  S := ![1, 0]
  D := fun i t => if i = 0 ∧ 3 ≤ t then 1 else 0
  dsq := fun _ => 0
  hF := by decide +kernel

/-- C144 (violated without a second never-switcher in the baseline level).  The covariates are then silently ignored: the adjusted
changes are the unadjusted ones. -/
theorem C144_unidentified_violated (P : Frame ι β K) (X : Covs P J) (lin : Matrix J J K → (J → K) → J → K) (h : ℕ)
    (D : P.Row → Option K) (r : P.Row)
    (hone : ((regRows P D (P.dsq r.1)).image Sigma.fst).card ≤ 1) : adjD P X lin h D r = D r := by
  unfold adjD
  have : enough P X h D (P.dsq r.1) = false := by
    unfold enough
    have : ¬ 1 < ((regRows P D (P.dsq r.1)).image Sigma.fst).card := by omega
    simp [this]
  split_ifs
  · unfold theta
    rw [this]
    cases D r <;> simp
  · rfl

example : (∀ i, ((regRows exP1.frame (exP1.frame.diff false 1) (exP1.frame.dsq i)).image Sigma.fst).card ≤ 1) ∧
    estimateD exP1.frame (exP1.opt (1 / 10)) 1
      (adjD exP1.frame (fun (_ : Fin 1) i k => exP1.frame.y i k) lin1 1 (exP1.frame.diff false 1)) ≠ 0 := by decide +kernel

/-- C145 (violated).  Without covariates a shock common to everybody in a period cancels (C138).  With covariates it does not: the
regression on covariate changes has no intercept and no period effects, so the shock moves its coefficients. -/
theorem C145_common_shock_violated :
    let δ : ℤ → ℕ → ℚ := fun t _ => if t = 3 then 10 else 0
    let Q := exB.frame.addShock (fun _ => 0) δ
    let o := exB.opt (1 / 10)
    estimateD Q o 1 (Q.diff false 1) = estimateD exB.frame o 1 (exB.frame.diff false 1) ∧
    estimateD Q o 1 (adjD Q exX lin1 1 (Q.diff false 1)) ≠
      estimateD exB.frame o 1 (adjD exB.frame exX lin1 1 (exB.frame.diff false 1)) := by
  decide +kernel

/-- C145.  A covariate that is measured from another origin for each unit gives the same adjusted changes. -/
theorem C145_origin (P : Frame ι β K) (X : Covs P J) (lin : Matrix J J K → (J → K) → J → K) (h : ℕ) (D : P.Row → Option K)
    (b : J → ι → K) : adjD P (fun j i k => (X j i k).map fun x => x + b j i) lin h D = adjD P X lin h D := by
  have hx : xdiff P (fun j i k => (X j i k).map fun x => x + b j i) h = xdiff P X h := by
    funext j r
    unfold xdiff xlag
    by_cases hh : h ≤ r.2.1
    · rw [dif_pos hh, dif_pos hh]
      beta_reduce
      generalize X j r.1 r.2 = u
      generalize X j r.1 ⟨r.2.1 - h, lt_of_le_of_lt (Nat.sub_le _ _) r.2.2⟩ = w
      cases u <;> cases w <;> simp [sub?]
    · rw [dif_neg hh, dif_neg hh]; rfl
  have hv : validRows P (fun j i k => (X j i k).map fun x => x + b j i) h D = validRows P X h D := by
    funext d; unfold validRows; rw [hx]
  funext r
  unfold adjD theta enough momX gramX
  rw [hx, hv]

/-! ## C146: the variance with covariates -/

/-- C146 (violated).  The estimated covariate coefficients are meant to add their own uncertainty to every unit's influence
value.  What is subtracted instead is the same multiple of the number of the unit's rows for every unit, whatever the regression's
inverse moment matrix and whatever the unit's data: the sum that holds the data is zero exactly where it is used. -/
theorem C146_adjustment_violated (P : Frame ι β K) (X : Covs P J) (o : Opt K) (h : ℕ) (E : P.Row → Option K)
    (levels : Finset K) (inv : K → Matrix J J K) (th : K → J → K) (i : ι) :
    part2 P X h o E levels inv th i =
      -((P.n i : K) * ∑ d ∈ levels, ∑ j, (∑ i', mSum P X h o E j d i') / Fintype.card ι * th d j) := by
  have hb : ∀ j d (r : P.Row), inBrackets P X h inv th j d r = - th d j := by
    intro j d r
    unfold inBrackets
    have : ∀ k, (if P.dsq r.1 = d ∧ P.F r.1 ≠ ⊤ then inv d j k * inSum P X h k d r else 0) = 0 := by
      intro k
      by_cases e : P.dsq r.1 = d ∧ P.F r.1 ≠ ⊤
      · rw [if_pos e]
        unfold inSum
        rw [if_neg fun h' => e.2 h'.1, mul_zero]
      · rw [if_neg e]
    simp only [this]
    simp
  unfold part2
  simp only [hb, mul_neg, sum_neg_distrib, sum_const, card_univ, Fintype.card_fin, nsmul_eq_mul]

/-- C146.  So on a panel where every unit has as many rows the subtraction moves all influence values by one constant. -/
theorem C146_constant_shift (P : Frame ι β K) (X : Covs P J) (o : Opt K) (h : ℕ) (v : VOpt ι γ K) (E : P.Row → Option K)
    (levels : Finset K) (inv inv' : K → Matrix J J K) (th : K → J → K) (pl : Bool) (T : ℕ) (hT : ∀ i, P.n i = T) :
    ∃ c : K, ∀ i, unitVarX P X h o v E levels inv th pl i = unitVar P o h E v pl i + c ∧
      unitVarX P X h o v E levels inv' th pl i = unitVar P o h E v pl i + c := by
  refine ⟨(T : K) * ∑ d ∈ levels, ∑ j, (∑ i', mSum P X h o E j d i') / Fintype.card ι * th d j, fun i => ?_⟩
  unfold unitVarX
  rw [C146_adjustment_violated, C146_adjustment_violated, hT]
  constructor <;> ring

/-- C146 (violated).  Adding the covariate to the outcome changes no estimate and no residual (C144) but it does change the
standard error, through that constant. -/
theorem C146_covariate_in_outcome_violated :
    let o := exB.opt (1 / 10)
    let E := adjD exB.frame exX lin1 1 (exB.frame.diff false 1)
    let Q := exB.frame.addCovs exX (fun _ => 0) (fun _ => 1)
    let EQ := adjD Q exX lin1 1 (Q.diff false 1)
    let ψ := unitVarX exB.frame exX 1 o exV E {0} (fun _ => 0) (fun d => theta exB.frame exX lin1 1 (exB.frame.diff false 1) d) false
    let ψQ := unitVarX Q exX 1 o exV EQ {0} (fun _ => 0) (fun d => theta Q exX lin1 1 (Q.diff false 1) d) false
    estimateD Q o 1 EQ = estimateD exB.frame o 1 E ∧ horizonSE exV ψQ ≠ horizonSE exV ψ := by
  decide +kernel

example : (∀ i, exB.frame.n i = 4) := by decide +kernel

end Verif.Inter
