import Verif.Inter.VarLemmas
import Verif.Inter.HorizonEx
import Mathlib.Order.Monotone.Basic
import Mathlib.Data.Fin.VecNotation
import Mathlib.Logic.Function.Basic

/-! # Standard errors of `did_multiplegt`: numbering of the periods, common shocks, units of measurement (C137-C139) -/

set_option linter.unusedSectionVars false
set_option linter.unusedSimpArgs false

namespace Verif.Inter

open Finset

variable {ι β γ K : Type*} [Fintype ι] [DecidableEq ι] [DecidableEq β] [DecidableEq γ] [Field K] [LinearOrder K]

/-- The rows of every unit are the periods `τ 0 < τ 1 < ...` (`DIDInterPanelBalancer`, `transformers.py:792-815`, gives every
unit a row in every period that occurs in the data; outcomes may be missing). -/
structure OnGrid (P : Frame ι β K) (τ : ℕ → ℤ) : Prop where
  mono : StrictMono τ
  time : ∀ i k, P.t i k = τ k.1

theorem diff_row (P : Frame ι β K) (pl : Bool) (h : ℕ) (r : P.Row) (hd : P.diff pl h r ≠ none) : h ≤ r.2.1 := by
  by_contra hc
  apply hd
  unfold Frame.diff Frame.shift
  rw [dif_neg hc]
  cases pl <;> simp [sub?]

/-- With periods numbered from 1 on, the window of `compute_did_multiplegt.py:421-426` lets every row with a weight pass. -/
theorem window_of_contrast (P : Frame ι β K) (o : Opt K) (h : ℕ) (pl : Bool) (τ : ℕ → ℤ) (hG : OnGrid P τ) (h1 : 1 ≤ τ 0)
    (r : P.Row) (a : K) (ha : contrastD P o h (P.diff pl h) r = some a) (ha0 : a ≠ 0) : window P h r = true := by
  have hd : P.diff pl h r ≠ none := by
    intro e
    unfold contrastD distD at ha
    rw [e] at ha
    cases ha
  have hk := diff_row P pl h r hd
  have hτ : ∀ k : ℕ, τ 0 + k ≤ τ k := by
    intro k
    induction k with
    | zero => simp
    | succ k ih =>
      have := hG.mono (Nat.lt_succ_self k)
      push_cast
      have h2 : τ k < τ (k + 1) := this
      omega
  have ht : (h : ℤ) + 1 ≤ P.time r := by
    have := hτ r.2.1
    have e : P.time r = τ r.2.1 := hG.time r.1 r.2
    rw [e]
    have : (h : ℤ) ≤ (r.2.1 : ℤ) := by exact_mod_cast hk
    omega
  have key : ∀ s : P.Row, s ∈ peers P r → (P.time s : WithTop ℤ) < P.F s.1 → P.time r ≤ tG P r.1 := by
    intro s hs hF
    unfold peers at hs
    simp only [mem_filter, mem_univ, true_and] at hs
    have hle : fTrunc P s.1 ≤ (univ.filter fun j => P.cell j = P.cell r.1).sup' ⟨r.1, by simp⟩ (fTrunc P) :=
      le_sup' (fTrunc P) (by simp [hs.2])
    have hf : P.time s + 1 ≤ fTrunc P s.1 := by
      unfold fTrunc
      cases hFs : P.F s.1 with
      | top =>
        simp only [WithTop.untopD_top]
        have hm : P.t s.1 s.2 ∈ univ.image (P.t s.1) := mem_image_of_mem _ (mem_univ _)
        have hle := le_max hm
        cases hmx : (univ.image (P.t s.1)).max with
        | bot => rw [hmx] at hle; simp at hle
        | coe m =>
          rw [hmx, WithBot.coe_le_coe] at hle
          simp only [WithBot.unbotD_coe]
          have : P.time s = P.t s.1 s.2 := rfl
          omega
      | coe f =>
        simp only [WithTop.untopD_coe]
        rw [hFs, WithTop.coe_lt_coe] at hF
        omega
    unfold tG
    rw [← hs.1]
    omega
  have hT : P.time r ≤ tG P r.1 := by
    by_cases hs : isSwD P o h (P.diff pl h) r = true
    · obtain ⟨s, hs'⟩ := (sw_has_control P o h _ hs).2
      unfold ctGroup at hs'
      rw [mem_filter] at hs'
      have := before_of_ct P o _ hs'.2
      unfold beforeSwitch at this
      exact key s hs'.1 (by simpa using this)
    · by_cases hc : isCtD P o (P.diff pl h) r = true
      · have := before_of_ct P o _ hc
        unfold beforeSwitch at this
        exact key r (mem_peers_self P r) (by simpa using this)
      · exact absurd (contrast_zero P o h _ ha (by simpa using hs) (Or.inl (by simpa using hc))) ha0
  unfold window
  simp only [Bool.and_eq_true, decide_eq_true_iff]
  exact ⟨⟨by omega, ht⟩, hT⟩

/-- The influence value of a row without the window. -/
def infNoWindow (P : Frame ι β K) (o : Opt K) (h : ℕ) (D : P.Row → Option K) (v : VOpt ι γ K) (pl : Bool) (r : P.Row) : K :=
  ((contrastD P o h D r).map fun a =>
    scaleGN P o h D * P.w r.1 r.2 * a * dofScale P o h D v pl r * ((D r).getD 0 - eHat P o h D v pl r)).getD 0

theorem infVar_noWindow (P : Frame ι β K) (o : Opt K) (h : ℕ) (v : VOpt ι γ K) (pl : Bool) (τ : ℕ → ℤ) (hG : OnGrid P τ)
    (h1 : 1 ≤ τ 0) (r : P.Row) :
    infVar P o h (P.diff pl h) v pl r = infNoWindow P o h (P.diff pl h) v pl r := by
  unfold infVar infNoWindow
  cases ha : contrastD P o h (P.diff pl h) r with
  | none => rfl
  | some a =>
    simp only [Option.map_some, Option.getD_some]
    by_cases ha0 : a = 0
    · rw [ha0]; ring
    · rw [if_pos (window_of_contrast P o h pl τ hG h1 r a ha ha0), one_mul]

/-- The same data with every period number, and every first-switch period, moved by `c`. -/
abbrev Frame.relabel (P : Frame ι β K) (c : ℤ) : Frame ι β K :=
  { P with t := fun i k => P.t i k + c, F := fun i => P.F i + (c : WithTop ℤ) }

/-- `t_min` and `t_max` of the renumbered data. -/
abbrev Opt.relabel (o : Opt K) (c : ℤ) : Opt K := { o with tmin := o.tmin + c, tmax := o.tmax + c }

theorem withTop_lt_add (x : WithTop ℤ) (m c : ℤ) : ((m + c : ℤ) : WithTop ℤ) < x + (c : WithTop ℤ) ↔ (m : WithTop ℤ) < x := by
  induction x using WithTop.recTopCoe with
  | top => simp
  | coe a => rw [← WithTop.coe_add, WithTop.coe_lt_coe, WithTop.coe_lt_coe]; omega

theorem withTop_add_lt (x : WithTop ℤ) (m c : ℤ) : x + (c : WithTop ℤ) < ((m + c : ℤ) : WithTop ℤ) ↔ x < (m : WithTop ℤ) := by
  induction x using WithTop.recTopCoe with
  | top => simp
  | coe a => rw [← WithTop.coe_add, WithTop.coe_lt_coe, WithTop.coe_lt_coe]; omega

theorem withTop_le_add (x : WithTop ℤ) (m c : ℤ) : ((m + c : ℤ) : WithTop ℤ) ≤ x + (c : WithTop ℤ) ↔ (m : WithTop ℤ) ≤ x := by
  rw [← not_lt, ← not_lt, withTop_add_lt]

theorem withTop_add_inj (x y : WithTop ℤ) (c : ℤ) : x + (c : WithTop ℤ) = y + (c : WithTop ℤ) ↔ x = y := by
  induction x using WithTop.recTopCoe with
  | top =>
    induction y using WithTop.recTopCoe with
    | top => simp
    | coe b =>
      rw [WithTop.top_add, ← WithTop.coe_add]
      exact ⟨fun e => absurd e.symm WithTop.coe_ne_top, fun e => absurd e.symm WithTop.coe_ne_top⟩
  | coe a =>
    induction y using WithTop.recTopCoe with
    | top => rw [← WithTop.coe_add, WithTop.top_add]; simp
    | coe b =>
      rw [← WithTop.coe_add, ← WithTop.coe_add, WithTop.coe_inj, WithTop.coe_inj]
      omega

section relabel
variable (P : Frame ι β K) (o : Opt K) (h : ℕ) (D : P.Row → Option K) (v : VOpt ι γ K) (c : ℤ)

theorem relabel_control (r : P.Row) : isControl (P.relabel c) (o.relabel c) r = isControl P o r := by
  unfold isControl
  have h1 : decide (((P.relabel c).time r : WithTop ℤ) < (P.relabel c).F r.1) = decide ((P.time r : WithTop ℤ) < P.F r.1) :=
    decide_eq_decide.2 (withTop_lt_add (P.F r.1) (P.time r) c)
  have h2 : decide ((P.relabel c).F r.1 < (((o.relabel c).tmax + 1 : ℤ) : WithTop ℤ)) =
      decide (P.F r.1 < ((o.tmax + 1 : ℤ) : WithTop ℤ)) := by
    refine decide_eq_decide.2 ?_
    rw [show (o.relabel c).tmax + 1 = (o.tmax + 1) + c by unfold Opt.relabel; ring]
    exact withTop_add_lt (P.F r.1) (o.tmax + 1) c
  rw [h1, h2]

theorem relabel_peers (r : P.Row) : peers (P.relabel c) r = peers P r := by
  unfold peers
  refine filter_congr fun s _ => ?_
  have h1 : ∀ s : P.Row, (P.relabel c).time s = P.time s + c := fun _ => rfl
  rw [h1, h1]
  have h2 : (P.relabel c).cell = P.cell := rfl
  rw [h2]
  constructor
  · rintro ⟨a, b⟩; exact ⟨by omega, b⟩
  · rintro ⟨a, b⟩; exact ⟨by omega, b⟩

theorem relabel_never : neverD (P.relabel c) (o.relabel c) D = neverD P o D := by
  funext r
  unfold neverD
  rw [relabel_control]

theorem relabel_nControl : nControlD (P.relabel c) (o.relabel c) D = nControlD P o D := by
  funext r
  unfold nControlD
  rw [relabel_never, relabel_peers]

theorem relabel_at (r : P.Row) : atTarget (P.relabel c) h r = atTarget P h r := by
  unfold atTarget
  refine decide_eq_decide.2 ?_
  rw [withTop_event, withTop_event, ← withTop_add_inj (P.F r.1) _ c]
  have : ((P.relabel c).time r - h + 1 : ℤ) = (P.time r - h + 1) + c := by
    show P.time r + c - h + 1 = _
    ring
  rw [this, WithTop.coe_add]

theorem relabel_before (r : P.Row) : beforeSwitch (P.relabel c) r = beforeSwitch P r :=
  decide_eq_decide.2 (withTop_lt_add (P.F r.1) (P.time r) c)

theorem relabel_same (i : ι) : sameOk (P.relabel c) (o.relabel c) i = sameOk P o i := by
  unfold sameOk
  have : decide ((((o.relabel c).tmin + ((o.relabel c).placebo + 1) : ℤ) : WithTop ℤ) ≤ (P.relabel c).F i) =
      decide (((o.tmin + (o.placebo + 1) : ℤ) : WithTop ℤ) ≤ P.F i) := by
    refine decide_eq_decide.2 ?_
    rw [show ((o.relabel c).tmin + ((o.relabel c).placebo + 1) : ℤ) = (o.tmin + (o.placebo + 1)) + c by
      unfold Opt.relabel; simp only; ring]
    exact withTop_le_add (P.F i) _ c
  rw [this]

theorem relabel_event (r : P.Row) : isEventD (P.relabel c) (o.relabel c) h D r = isEventD P o h D r := by
  have := relabel_at P h c r
  unfold atTarget at this
  unfold isEventD
  rw [this, relabel_nControl, relabel_same]
  rfl

theorem relabel_dist : distD (P.relabel c) (o.relabel c) h D = distD P o h D := by
  funext r
  unfold distD
  rw [relabel_event]

theorem relabel_distW : distWD (P.relabel c) (o.relabel c) h D = distWD P o h D := by
  funext r
  unfold distWD
  rw [relabel_dist]
  have : swMask (P.relabel c) (o.relabel c) r.1 = swMask P o r.1 := by
    unfold swMask
    rw [relabel_same]
    rfl
  rw [this]

theorem relabel_contrast : contrastD (P.relabel c) (o.relabel c) h D = contrastD P o h D := by
  funext r
  unfold contrastD nTreatedD
  rw [relabel_dist, relabel_distW, relabel_nControl, relabel_never, relabel_peers]

theorem relabel_scaleGN : scaleGN (P.relabel c) (o.relabel c) h D = scaleGN P o h D := by
  unfold scaleGN nSwWD
  rw [relabel_distW]

theorem relabel_sw : isSwD (P.relabel c) (o.relabel c) h D = isSwD P o h D := by
  funext r
  unfold isSwD
  rw [relabel_dist]

theorem relabel_ct : isCtD (P.relabel c) (o.relabel c) D = isCtD P o D := by
  funext r
  unfold isCtD
  rw [relabel_never]

theorem relabel_cohortKey : cohortKey (P.relabel c) v = cohortKey P v := by
  funext r
  unfold cohortKey
  refine filter_congr fun s _ => ?_
  have : (P.relabel c).F s.1 = (P.relabel c).F r.1 ↔ P.F s.1 = P.F r.1 := withTop_add_inj _ _ c
  rw [this]

theorem relabel_cohort : cohort (P.relabel c) (o.relabel c) h D v = cohort P o h D v := by
  funext r
  unfold cohort
  rw [relabel_sw, relabel_cohortKey]

theorem relabel_ctGroup : ctGroup (P.relabel c) (o.relabel c) D = ctGroup P o D := by
  funext r
  unfold ctGroup
  rw [relabel_ct, relabel_peers]

theorem relabel_unGroup : unGroup (P.relabel c) (o.relabel c) h D = unGroup P o h D := by
  funext r
  unfold unGroup
  rw [relabel_ct, relabel_sw, relabel_peers]

theorem relabel_dofS (pl : Bool) : dofS (P.relabel c) (o.relabel c) h D v pl = dofS P o h D v pl := by
  funext r
  unfold dofS
  rw [relabel_sw, relabel_cohort, relabel_cohortKey, relabel_dist]
  rfl

theorem relabel_dofC : dofC (P.relabel c) (o.relabel c) D v = dofC P o D v := by
  funext r
  unfold dofC
  rw [relabel_ct, relabel_ctGroup, relabel_peers]
  rfl

theorem relabel_dofU : dofU (P.relabel c) (o.relabel c) h D v = dofU P o h D v := by
  funext r
  unfold dofU
  rw [relabel_sw, relabel_ct, relabel_unGroup, relabel_peers]
  rfl

theorem relabel_eHat (pl : Bool) (r : P.Row) : eHat (P.relabel c) (o.relabel c) h D v pl r = eHat P o h D v pl r := by
  unfold eHat meanS meanC meanU
  rw [relabel_dofS, relabel_dofC, relabel_dofU, relabel_at, relabel_before, relabel_sw, relabel_ct, relabel_cohort,
    relabel_ctGroup, relabel_unGroup]
  rfl

theorem relabel_dofScale (pl : Bool) (r : P.Row) :
    dofScale (P.relabel c) (o.relabel c) h D v pl r = dofScale P o h D v pl r := by
  unfold dofScale
  rw [relabel_dofS, relabel_dofC, relabel_dofU, relabel_at, relabel_before]

end relabel

/-- C137.  Moving all period numbers by the same amount changes neither the estimate nor any unit's influence value, and so
not the standard error, as long as the first period is numbered 1 or higher before and after. -/
theorem C137_renumber (P : Frame ι β K) (o : Opt K) (h : ℕ) (v : VOpt ι γ K) (pl : Bool) (τ : ℕ → ℤ) (hG : OnGrid P τ)
    (c : ℤ) (h1 : 1 ≤ τ 0) (h2 : 1 ≤ τ 0 + c) :
    estimateD (P.relabel c) (o.relabel c) h ((P.relabel c).diff pl h) = estimateD P o h (P.diff pl h) ∧
    (∀ i, unitVar (P.relabel c) (o.relabel c) h ((P.relabel c).diff pl h) v pl i = unitVar P o h (P.diff pl h) v pl i) ∧
    horizonSE v (unitVar (P.relabel c) (o.relabel c) h ((P.relabel c).diff pl h) v pl) =
      horizonSE v (unitVar P o h (P.diff pl h) v pl) := by
  have hD : (P.relabel c).diff pl h = P.diff pl h := rfl
  have hu : ∀ i, unitVar (P.relabel c) (o.relabel c) h ((P.relabel c).diff pl h) v pl i =
      unitVar P o h (P.diff pl h) v pl i := by
    intro i
    unfold unitVar
    refine sum_congr rfl fun k _ => ?_
    have hG' : OnGrid (P.relabel c) (fun k => τ k + c) :=
      ⟨fun a b hab => add_lt_add_left (hG.mono hab) c, fun i k => by
        show P.t i k + c = _
        rw [hG.time]⟩
    have e1 := infVar_noWindow (P.relabel c) (o.relabel c) h v pl _ hG' h2 ⟨i, k⟩
    have e2 := infVar_noWindow P o h v pl τ hG h1 ⟨i, k⟩
    rw [e1, e2]
    unfold infNoWindow
    rw [hD, relabel_contrast, relabel_scaleGN, relabel_eHat, relabel_dofScale]
  refine ⟨?_, hu, congrArg _ (funext hu)⟩
  unfold estimateD
  rw [hD, relabel_contrast, relabel_scaleGN]

/-- C137 (violated).  When no period is numbered above the horizon, every influence value is 0: the reported standard error is
`sqrt 0 / G`, whatever the data. -/
theorem C137_low_numbers_violated (P : Frame ι β K) (o : Opt K) (h : ℕ) (D : P.Row → Option K) (v : VOpt ι γ K) (pl : Bool)
    (hlow : ∀ r, P.time r ≤ h) (hcl : v.cluster = none) :
    (∀ i, unitVar P o h D v pl i = 0) ∧ horizonSE v (unitVar P o h D v pl) = v.sq 0 / Fintype.card ι := by
  have hu : ∀ i, unitVar P o h D v pl i = 0 := by
    intro i
    unfold unitVar
    refine sum_eq_zero fun k _ => ?_
    unfold infVar
    have : window P h ⟨i, k⟩ = false := by
      unfold window
      have := hlow ⟨i, k⟩
      have : ¬ ((h : ℤ) + 1 ≤ P.time ⟨i, k⟩) := by omega
      simp [this]
    rw [this]
    cases contrastD P o h D ⟨i, k⟩ <;> simp
  refine ⟨hu, ?_⟩
  unfold horizonSE plainSE
  rw [hcl]
  simp only [hu]
  simp

/-- No clusters, `less_conservative_se=True`; the square root is left as the identity (only sums of squares are compared). -/
def exV : VOpt (Fin 4) ℕ ℚ where
  dfg := ![some 1, some 1, none, none]
  cluster := none
  less := true
  sq := id

theorem exB_grid : OnGrid exB.frame (fun k => 1 + (k : ℤ)) :=
  ⟨fun a b hab => by simpa using hab, fun i k => rfl⟩

/-- C137 (violated).  The panel `exB` numbered 1..4 has a positive variance at horizon 1; numbered -3..0 the estimate is the same
and the variance is 0; numbered 0..3 it is a third value (the first usable period is dropped). -/
theorem C137_example_violated :
    estimateD exB.frame (exB.opt (1 / 10)) 1 (exB.frame.diff false 1) = 61 / 12 ∧
    estimateD (exB.frame.relabel (-4)) ((exB.opt (1 / 10)).relabel (-4)) 1 ((exB.frame.relabel (-4)).diff false 1) = 61 / 12 ∧
    horizonSE exV (unitVar exB.frame (exB.opt (1 / 10)) 1 (exB.frame.diff false 1) exV false) = 5933 / 216 ∧
    horizonSE exV (unitVar (exB.frame.relabel (-1)) ((exB.opt (1 / 10)).relabel (-1)) 1
      ((exB.frame.relabel (-1)).diff false 1) exV false) = 2897 / 72 ∧
    horizonSE exV (unitVar (exB.frame.relabel (-4)) ((exB.opt (1 / 10)).relabel (-4)) 1
      ((exB.frame.relabel (-4)).diff false 1) exV false) = 0 := by
  decide +kernel

end Verif.Inter
