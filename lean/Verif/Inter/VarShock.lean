import Verif.Inter.VarProps
import Mathlib.Analysis.Real.Sqrt

/-! # Standard errors of `did_multiplegt`: common shocks and units of measurement (C138, C139) -/

set_option linter.unusedSectionVars false
set_option linter.unusedSimpArgs false

namespace Verif.Inter

open Finset

variable {ι β γ K : Type*} [Fintype ι] [DecidableEq ι] [DecidableEq β] [DecidableEq γ] [Field K] [LinearOrder K]

/-- The same data where unit `i` has `a i` added to its outcome throughout and everybody in baseline cell `b` has `δ t b` added in
period `t`. -/
abbrev Frame.addShock (P : Frame ι β K) (a : ι → K) (δ : ℤ → β → K) : Frame ι β K :=
  { P with y := fun i k => (P.y i k).map fun x => x + (a i + δ (P.t i k) (P.cell i)) }

/-- The same data with the outcome multiplied by `c`. -/
abbrev Frame.scaleY (P : Frame ι β K) (c : K) : Frame ι β K :=
  { P with y := fun i k => (P.y i k).map fun x => c * x }

theorem shock_shift (P : Frame ι β K) (a : ι → K) (δ : ℤ → β → K) (τ : ℕ → ℤ) (hG : OnGrid P τ) (r : P.Row) (m : ℕ) :
    (P.addShock a δ).shift r m =
      (P.shift r m).map fun x => x + (a r.1 + δ (τ (r.2.1 - m)) (P.cell r.1)) := by
  unfold Frame.shift
  by_cases hm : m ≤ r.2.1
  · rw [dif_pos hm, dif_pos hm, ← hG.time r.1 ⟨r.2.1 - m, lt_of_le_of_lt (Nat.sub_le _ _) r.2.2⟩]
  · rw [dif_neg hm, dif_neg hm]; rfl

/-- The change of a row moves by an amount common to its period and cell. -/
theorem shock_diff (P : Frame ι β K) (a : ι → K) (δ : ℤ → β → K) (τ : ℕ → ℤ) (hG : OnGrid P τ) (pl : Bool) (h : ℕ) :
    ∃ e : ℤ → β → K, ∀ r : P.Row,
      (P.addShock a δ).diff pl h r = (P.diff pl h r).map fun x => x + e (P.time r) (P.cell r.1) := by
  have hinv : ∀ k, Function.invFun τ (τ k) = k := Function.leftInverse_invFun hG.mono.injective
  refine ⟨fun t b => if pl then δ (τ (Function.invFun τ t - 2 * h)) b - δ (τ (Function.invFun τ t - h)) b
    else δ t b - δ (τ (Function.invFun τ t - h)) b, fun r => ?_⟩
  have ht : P.time r = τ r.2.1 := hG.time r.1 r.2
  unfold Frame.diff
  rw [shock_shift P a δ τ hG, shock_shift P a δ τ hG, ht]
  beta_reduce
  rw [hinv]
  cases pl with
  | true =>
    simp only [if_true]
    cases P.shift r h <;> cases P.shift r (2 * h) <;> simp [sub?]
    ring
  | false =>
    simp only [Bool.false_eq_true, if_false]
    have : P.t r.1 r.2 = τ r.2.1 := hG.time r.1 r.2
    rw [this]
    cases P.shift r h <;> cases P.y r.1 r.2 <;> simp [sub?]
    ring

section
variable [IsStrictOrderedRing K]

/-- A common amount in every period and cell does not move the estimate. -/
theorem estimate_shift (P : Frame ι β K) (o : Opt K) (h : ℕ) (D D' : P.Row → Option K) (e : ℤ → β → K)
    (hD : ∀ r, D' r = (D r).map fun x => x + e (P.time r) (P.cell r.1)) :
    estimateD P o h D' = estimateD P o h D := by
  have H : ∀ r, (D' r).isSome = (D r).isSome := fun r => by rw [hD]; simp
  unfold estimateD
  rw [contrastD_congr P o h D D' H, scaleGN_congr P o h D D' H]
  congr 1
  have hc : ∀ r, ((contrastD P o h D r).map fun a => scaleGN P o h D * P.w r.1 r.2 * a * (D' r).getD 0).getD 0 =
      ((contrastD P o h D r).map fun a => scaleGN P o h D * P.w r.1 r.2 * a * (D r).getD 0).getD 0 +
        scaleGN P o h D * (P.w r.1 r.2 * (contrastD P o h D r).getD 0 * e (P.time r) (P.cell r.1)) := by
    intro r
    rw [hD]
    cases hd : D r with
    | none =>
      have : contrastD P o h D r = none := by unfold contrastD distD; rw [hd]; rfl
      rw [this]; simp
    | some x =>
      cases contrastD P o h D r with
      | none => simp
      | some a => simp; ring
  rw [sum_congr rfl fun r _ => hc r, sum_add_distrib]
  rw [add_eq_left, ← mul_sum]
  have hz : ∑ r : P.Row, P.w r.1 r.2 * (contrastD P o h D r).getD 0 * e (P.time r) (P.cell r.1) = 0 := by
    have hr : ∀ r : P.Row, P.w r.1 r.2 * (contrastD P o h D r).getD 0 * e (P.time r) (P.cell r.1) =
        (if isSwD P o h D r then P.w r.1 r.2 else 0) * e (P.time r) (P.cell r.1) -
          ∑ s ∈ peers P r, (if isSwD P o h D s then P.w s.1 s.2 else 0) /
            (if nControlD P o D s = 0 then 1 else nControlD P o D s) *
            ((if isCtD P o D r then P.w r.1 r.2 else 0) * e (P.time s) (P.cell s.1)) := by
      intro r
      have hT : ∑ s ∈ peers P r, (if isSwD P o h D s then P.w s.1 s.2 else 0) /
            (if nControlD P o D s = 0 then 1 else nControlD P o D s) *
            ((if isCtD P o D r then P.w r.1 r.2 else 0) * e (P.time s) (P.cell s.1)) =
          nTreatedD P o h D r / (if nControlD P o D r = 0 then 1 else nControlD P o D r) *
            ((if isCtD P o D r then P.w r.1 r.2 else 0) * e (P.time r) (P.cell r.1)) := by
        unfold nTreatedD
        rw [sum_div, sum_mul]
        refine sum_congr rfl fun s hs => ?_
        have hn : nControlD P o D s = nControlD P o D r := by unfold nControlD; rw [peers_congr hs]
        have hs' := hs
        unfold peers at hs'
        simp only [mem_filter, mem_univ, true_and] at hs'
        rw [hn, distWD_eq, hs'.1, hs'.2]
      rw [hT]
      unfold contrastD
      have h1 := neverD_getD P o D r
      have h2 : (distD P o h D r).getD 0 = if isSwD P o h D r then 1 else 0 := by
        unfold isSwD distD
        cases D r with
        | none => simp
        | some x => cases isEventD P o h D r <;> simp
      cases hd : distD P o h D r with
      | none =>
        have hDn : D r = none := by
          unfold distD at hd
          cases h3 : D r with
          | none => rfl
          | some x => rw [h3] at hd; cases hd
        have hs : isSwD P o h D r = false := by
          cases hs : isSwD P o h D r with
          | false => rfl
          | true => exact absurd hDn ((isSwD_iff P o h D r).1 hs).1
        have hc : isCtD P o D r = false := by
          cases hs : isCtD P o D r with
          | false => rfl
          | true => exact absurd hDn ((isCtD_iff P o D r).1 hs).1
        rw [hs, hc]; simp
      | some x =>
        rw [hd] at h2
        simp only [Option.getD_some] at h2
        simp only [Option.map_some, Option.getD_some]
        rw [h1, h2]
        by_cases a1 : isSwD P o h D r = true <;> by_cases a2 : isCtD P o D r = true <;> simp [a1, a2] <;> ring
    rw [sum_congr rfl fun r _ => hr r, sum_sub_distrib]
    rw [sum_comm' (t' := univ) (s' := fun s => peers P s) (by
      intro r s
      simp only [mem_univ, true_and, and_true]
      exact peers_symm)]
    rw [← sum_sub_distrib]
    refine sum_eq_zero fun s _ => ?_
    rw [← mul_sum, ← sum_mul, ← sum_filter]
    by_cases hs : isSwD P o h D s = true
    · have hpos := (sw_has_control P o h D hs).1
      rw [if_pos hs, if_neg hpos.ne']
      have hcs : ∑ r ∈ (peers P s).filter (fun r => isCtD P o D r = true), P.w r.1 r.2 = nControlD P o D s :=
        (nControlD_sum P o D s).symm
      rw [hcs]
      field_simp
      ring
    · rw [if_neg hs]; simp
  rw [hz, mul_zero]

/-- C138.  No clustering, no covariates, positive weights on observed rows: constants of the units and shocks common to a period
and baseline cell change neither the estimate nor any influence value nor the standard error, for effects and placebos alike. -/
theorem C138_common_shock (P : Frame ι β K) (o : Opt K) (h : ℕ) (hh : 1 ≤ h) (v : VOpt ι γ K) (pl : Bool) (τ : ℕ → ℤ)
    (hG : OnGrid P τ) (hcl : v.cluster = none) (hw : ∀ r, P.diff pl h r ≠ none → 0 < P.w r.1 r.2)
    (a : ι → K) (δ : ℤ → β → K) :
    estimateD (P.addShock a δ) o h ((P.addShock a δ).diff pl h) = estimateD P o h (P.diff pl h) ∧
    (∀ i, unitVar (P.addShock a δ) o h ((P.addShock a δ).diff pl h) v pl i = unitVar P o h (P.diff pl h) v pl i) ∧
    horizonSE v (unitVar (P.addShock a δ) o h ((P.addShock a δ).diff pl h) v pl) =
      horizonSE v (unitVar P o h (P.diff pl h) v pl) := by
  obtain ⟨e, he⟩ := shock_diff P a δ τ hG pl h
  have hu : ∀ i, unitVar (P.addShock a δ) o h ((P.addShock a δ).diff pl h) v pl i =
      unitVar P o h (P.diff pl h) v pl i := by
    intro i
    unfold unitVar
    refine sum_congr rfl fun k _ => ?_
    exact infVar_shift P o h (P.diff pl h) ((P.addShock a δ).diff pl h) v hh e he hw pl
      (centred_plain P o h _ v hh hcl hw pl) ⟨i, k⟩
  exact ⟨estimate_shift P o h (P.diff pl h) ((P.addShock a δ).diff pl h) e he, hu, congrArg _ (funext hu)⟩

/-- C138.  The same with clusters, when all clusters are known and every period and cell with a switcher row holds switcher and
control rows of at least two clusters. -/
theorem C138_common_shock_clustered (P : Frame ι β K) (o : Opt K) (h : ℕ) (hh : 1 ≤ h) (v : VOpt ι γ K) (pl : Bool)
    (τ : ℕ → ℤ) (hG : OnGrid P τ) (c : ι → Option γ) (hcl : v.cluster = some c) (hk : ∀ i, (c i).isSome)
    (hw : ∀ r, P.diff pl h r ≠ none → 0 < P.w r.1 r.2)
    (H2 : ∀ r ∈ switcherRows P o pl h, ∃ s t : P.Row, c s.1 ≠ c t.1 ∧
      (s ∈ controls P o pl h r ∨ (s ∈ switcherRows P o pl h ∧ s ∈ peers P r)) ∧
      (t ∈ controls P o pl h r ∨ (t ∈ switcherRows P o pl h ∧ t ∈ peers P r)))
    (a : ι → K) (δ : ℤ → β → K) :
    (∀ i, unitVar (P.addShock a δ) o h ((P.addShock a δ).diff pl h) v pl i = unitVar P o h (P.diff pl h) v pl i) ∧
    horizonSE v (unitVar (P.addShock a δ) o h ((P.addShock a δ).diff pl h) v pl) =
      horizonSE v (unitVar P o h (P.diff pl h) v pl) := by
  obtain ⟨e, he⟩ := shock_diff P a δ τ hG pl h
  have hsw : ∀ r, isSwD P o h (P.diff pl h) r = true ↔ r ∈ switcherRows P o pl h := by
    intro r
    rw [isSwD_iff, mem_switcherRows, isEventD_eq, and_comm]
  have hct : ∀ r s, s ∈ controls P o pl h r → s ∈ peers P r ∧ isCtD P o (P.diff pl h) s = true := by
    intro r s hs
    unfold controls at hs
    simp only [mem_filter, mem_univ, true_and] at hs
    refine ⟨by unfold peers; simp [hs.1, hs.2.1], (isCtD_iff ..).2 ⟨hs.2.2.2.2, (isControl_iff ..).2 ⟨?_, hs.2.2.2.1⟩⟩⟩
    rw [hs.1]; exact hs.2.2.1
  have hun : ∀ r s, (s ∈ controls P o pl h r ∨ (s ∈ switcherRows P o pl h ∧ s ∈ peers P r)) →
      s ∈ unGroup P o h (P.diff pl h) r := by
    intro r s hs
    unfold unGroup
    rw [mem_filter, Bool.or_eq_true, hsw]
    rcases hs with hs | hs
    · exact ⟨(hct r s hs).1, Or.inr (hct r s hs).2⟩
    · exact ⟨hs.2, Or.inl hs.1⟩
  have hu : ∀ i, unitVar (P.addShock a δ) o h ((P.addShock a δ).diff pl h) v pl i =
      unitVar P o h (P.diff pl h) v pl i := by
    intro i
    unfold unitVar
    refine sum_congr rfl fun k _ => ?_
    refine infVar_shift P o h (P.diff pl h) ((P.addShock a δ).diff pl h) v hh e he hw pl
      (centred_clustered P o h _ v c hcl hk (fun r hr => ?_) pl) ⟨i, k⟩
    obtain ⟨s, t, hst, hs, ht⟩ := H2 r ((hsw r).1 hr)
    exact ⟨s, hun r s hs, t, hun r t ht, hst⟩
  exact ⟨hu, congrArg _ (funext hu)⟩

/-- C139 (for the influence values).  Multiplying the outcome by `c` multiplies the estimate and every influence value by `c`. -/
theorem C139_influence (P : Frame ι β K) (o : Opt K) (h : ℕ) (v : VOpt ι γ K) (pl : Bool) (c : K) :
    estimateD (P.scaleY c) o h ((P.scaleY c).diff pl h) = c * estimateD P o h (P.diff pl h) ∧
    ∀ i, unitVar (P.scaleY c) o h ((P.scaleY c).diff pl h) v pl i = c * unitVar P o h (P.diff pl h) v pl i := by
  have hsh : ∀ (r : P.Row) (m : ℕ), (P.scaleY c).shift r m = (P.shift r m).map fun x => c * x := by
    intro r m
    unfold Frame.shift
    by_cases hm : m ≤ r.2.1
    · rw [dif_pos hm, dif_pos hm]
    · rw [dif_neg hm, dif_neg hm]; rfl
  have hD : ∀ r : P.Row, (P.scaleY c).diff pl h r = (P.diff pl h r).map fun x => c * x := by
    intro r
    unfold Frame.diff
    rw [hsh, hsh]
    cases pl with
    | true =>
      simp only [if_true]
      cases P.shift r h <;> cases P.shift r (2 * h) <;> simp [sub?]
      ring
    | false =>
      simp only [Bool.false_eq_true, if_false]
      cases P.shift r h <;> cases P.y r.1 r.2 <;> simp [sub?]
      ring
  have H : ∀ r, ((P.scaleY c).diff pl h r).isSome = (P.diff pl h r).isSome := fun r => by rw [hD]; simp
  constructor
  · have h1 := contrastD_congr P o h (P.diff pl h) ((P.scaleY c).diff pl h) H
    have h2 := scaleGN_congr P o h (P.diff pl h) ((P.scaleY c).diff pl h) H
    have e : estimateD (P.scaleY c) o h ((P.scaleY c).diff pl h) = estimateD P o h ((P.scaleY c).diff pl h) := rfl
    rw [e]
    unfold estimateD
    rw [h1, h2, ← mul_div_assoc, mul_sum]
    congr 1
    refine sum_congr rfl fun r _ => ?_
    rw [hD]
    cases contrastD P o h (P.diff pl h) r with
    | none => simp
    | some x => cases P.diff pl h r <;> simp; ring
  · intro i
    unfold unitVar
    rw [mul_sum]
    refine sum_congr rfl fun k _ => ?_
    exact infVar_scale P o h (P.diff pl h) ((P.scaleY c).diff pl h) v c hD pl ⟨i, k⟩

end

/-- A standard error is homogeneous in the influence values. -/
theorem horizonSE_scale (v : VOpt ι γ ℝ) (hsq : v.sq = Real.sqrt) (c : ℝ) (ψ : ι → ℝ) :
    horizonSE v (fun i => c * ψ i) = |c| * horizonSE v ψ := by
  have hs : ∀ x : ℝ, Real.sqrt (c ^ 2 * x) = |c| * Real.sqrt x := fun x => by
    rw [Real.sqrt_mul (sq_nonneg c), Real.sqrt_sq_eq_abs]
  unfold horizonSE
  cases v.cluster with
  | none =>
    simp only
    unfold plainSE
    rw [hsq]
    simp only [mul_pow]
    rw [← mul_sum, hs, mul_div_assoc]
  | some g =>
    simp only
    unfold clusteredSE
    rw [hsq]
    simp only [mul_pow, ← mul_sum, hs]
    split_ifs <;> rw [mul_div_assoc]

/-- C139.  Measuring the outcome in another unit: the estimate is multiplied by `c`, the standard error by `|c|`, with or without
clusters. -/
theorem C139_units (P : Frame ι β ℝ) (o : Opt ℝ) (h : ℕ) (v : VOpt ι γ ℝ) (hsq : v.sq = Real.sqrt) (pl : Bool) (c : ℝ) :
    estimateD (P.scaleY c) o h ((P.scaleY c).diff pl h) = c * estimateD P o h (P.diff pl h) ∧
    horizonSE v (unitVar (P.scaleY c) o h ((P.scaleY c).diff pl h) v pl) =
      |c| * horizonSE v (unitVar P o h (P.diff pl h) v pl) := by
  have := C139_influence P o h v pl c
  refine ⟨this.1, ?_⟩
  rw [← horizonSE_scale v hsq]
  exact congrArg _ (funext this.2)

end Verif.Inter
