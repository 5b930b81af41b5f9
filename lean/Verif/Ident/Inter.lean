import Verif.Inter.HorizonEx
import Verif.Inter.Normalise
import Verif.Ident.Reg

set_option linter.unusedSectionVars false
set_option linter.unusedSimpArgs false

/-!
# C255: what `did_multiplegt` estimates on average

The design (rows, periods, treatments, first switches, weights, missing outcomes) is fixed, the outcomes are random.  `Y ω r` is the outcome in
row `r`, `Y0 ω r` the outcome the unit would have had if it had kept its baseline treatment.
-/

namespace Verif.Ident

open Verif.Inter MeasureTheory

variable {ι β Ω : Type*} [Fintype ι] [DecidableEq ι] [DecidableEq β] [MeasurableSpace Ω]

/-! ## Specification -/

/-- The design with the outcomes `Y`; outcomes missing in the design stay missing. -/
abbrev setY (D : Frame ι β ℝ) (Y : (i : ι) × Fin (D.n i) → ℝ) : Frame ι β ℝ :=
  { D with y := fun i k => (D.y i k).map fun _ => Y ⟨i, k⟩ }

/-- The identifying assumptions: outcomes have means; before its first switch a unit has its mean status-quo outcome; mean status-quo outcomes
of units with the same baseline follow the same trend. -/
structure StatusQuoTrends (P : Measure Ω) (D : Frame ι β ℝ) (Y Y0 : Ω → (i : ι) × Fin (D.n i) → ℝ) (trend : β → ℤ → ℝ) : Prop where
  int : ∀ r, Integrable (fun ω => Y ω r) P
  noAnticipation : ∀ r : (i : ι) × Fin (D.n i), ((D.t r.1 r.2 : ℤ) : WithTop ℤ) < D.F r.1 → expected P Y r = expected P Y0 r
  parallel : ∀ i (k k' : Fin (D.n i)), expected P Y0 ⟨i, k⟩ - expected P Y0 ⟨i, k'⟩ = trend (D.cell i) (D.t i k) - trend (D.cell i) (D.t i k')

/-- The rows of a unit are consecutive periods (units may enter late and leave early, outcomes may be missing). -/
def Gapless (D : Frame ι β ℝ) : Prop := ∀ i (k k' : Fin (D.n i)), D.t i k - D.t i k' = (k.1 : ℤ) - k'.1

/-! ## Lemmas -/

/-- The value `h` rows above, `0` outside the data. -/
def above (D : Frame ι β ℝ) (Y : (i : ι) × Fin (D.n i) → ℝ) (r : (i : ι) × Fin (D.n i)) (h : ℕ) : ℝ :=
  if hh : h ≤ r.2.1 then Y ⟨r.1, ⟨r.2.1 - h, lt_of_le_of_lt (Nat.sub_le _ _) r.2.2⟩⟩ else 0

/-- The outcome change the estimator uses. -/
def chg (D : Frame ι β ℝ) (pl : Bool) (h : ℕ) (Y : (i : ι) × Fin (D.n i) → ℝ) (r : (i : ι) × Fin (D.n i)) : ℝ :=
  if pl then above D Y r (2 * h) - above D Y r h else Y r - above D Y r h

theorem setY_shift (D : Frame ι β ℝ) (Y : (i : ι) × Fin (D.n i) → ℝ) (r : D.Row) (h : ℕ) :
    (setY D Y).shift r h = (D.shift r h).map fun _ => above D Y r h := by
  unfold Frame.shift above
  by_cases hh : h ≤ r.2.1
  · simp only [dif_pos hh]
  · simp only [dif_neg hh, Option.map_none]

theorem setY_diff (D : Frame ι β ℝ) (Y : (i : ι) × Fin (D.n i) → ℝ) (pl : Bool) (h : ℕ) (r : D.Row) :
    (setY D Y).diff pl h r = (D.diff pl h r).map fun _ => chg D pl h Y r := by
  unfold Frame.diff chg
  rw [setY_shift, setY_shift]
  cases pl
  · simp only [Bool.false_eq_true, if_false]
    rcases D.shift r h with _ | a <;> rcases hy : D.y r.1 r.2 with _ | b <;> simp [sub?, hy]
  · simp only [if_true]
    rcases D.shift r h with _ | a <;> rcases D.shift r (2 * h) with _ | b <;> simp [sub?]

theorem setY_diff_none (D : Frame ι β ℝ) (Y : (i : ι) × Fin (D.n i) → ℝ) (pl : Bool) (h : ℕ) (r : D.Row) :
    (setY D Y).diff pl h r = none ↔ D.diff pl h r = none := by rw [setY_diff]; simp

theorem setY_controls (D : Frame ι β ℝ) (Y : (i : ι) × Fin (D.n i) → ℝ) (o : Opt ℝ) (pl : Bool) (h : ℕ) (r : D.Row) :
    Verif.Inter.controls (setY D Y) o pl h r = Verif.Inter.controls D o pl h r := by
  ext s
  simp only [Verif.Inter.controls, Finset.mem_filter, Finset.mem_univ, true_and, ne_eq, setY_diff_none]
  exact Iff.rfl

theorem setY_switcherRows (D : Frame ι β ℝ) (Y : (i : ι) × Fin (D.n i) → ℝ) (o : Opt ℝ) (pl : Bool) (h : ℕ) :
    switcherRows (setY D Y) o pl h = switcherRows D o pl h := by
  ext r
  simp only [switcherRows, Finset.mem_filter, Finset.mem_univ, true_and, ne_eq, setY_diff_none, setY_controls]
  exact Iff.rfl

/-- Rows reached by a change that is observed exist. -/
theorem diff_rows {D : Frame ι β ℝ} {pl : Bool} {h : ℕ} {r : D.Row} (hd : D.diff pl h r ≠ none) :
    h ≤ r.2.1 ∧ (pl = true → 2 * h ≤ r.2.1) := by
  have hs : ∀ k, D.shift r k ≠ none → k ≤ r.2.1 := by
    intro k hk
    by_contra hc
    exact hk (by unfold Frame.shift; rw [dif_neg hc])
  unfold Frame.diff at hd
  cases pl
  · simp only [Bool.false_eq_true, if_false] at hd
    refine ⟨hs h fun e => hd (by rw [e]; rfl), fun h => by simp at h⟩
  · simp only [if_true] at hd
    refine ⟨hs h fun e => hd (by rw [e]; rfl), fun _ => hs (2 * h) fun e => hd (by rw [e]; cases D.shift r h <;> rfl)⟩

theorem above_integral (P : Measure Ω) (D : Frame ι β ℝ) (Y : Ω → (i : ι) × Fin (D.n i) → ℝ) (hY : ∀ r, Integrable (fun ω => Y ω r) P)
    (r : D.Row) (h : ℕ) : Integrable (fun ω => above D (Y ω) r h) P ∧ ∫ ω, above D (Y ω) r h ∂P = above D (expected P Y) r h := by
  unfold above expected
  by_cases hh : h ≤ r.2.1
  · simp only [dif_pos hh]; exact ⟨hY _, trivial⟩
  · simp only [dif_neg hh]; simp

theorem chg_integral (P : Measure Ω) (D : Frame ι β ℝ) (Y : Ω → (i : ι) × Fin (D.n i) → ℝ) (hY : ∀ r, Integrable (fun ω => Y ω r) P)
    (pl : Bool) (h : ℕ) (r : D.Row) :
    Integrable (fun ω => chg D pl h (Y ω) r) P ∧ ∫ ω, chg D pl h (Y ω) r ∂P = chg D pl h (expected P Y) r := by
  obtain ⟨a1, a2⟩ := above_integral P D Y hY r h
  obtain ⟨b1, b2⟩ := above_integral P D Y hY r (2 * h)
  unfold chg
  cases pl
  · simp only [Bool.false_eq_true, if_false]
    exact ⟨(hY r).sub a1, by rw [integral_sub (hY r) a1, a2]; rfl⟩
  · simp only [if_true]
    exact ⟨b1.sub a1, by rw [integral_sub b1 a1, a2, b2]⟩

theorem setY_rowDid (D : Frame ι β ℝ) (Y : (i : ι) × Fin (D.n i) → ℝ) (o : Opt ℝ) (pl : Bool) (h : ℕ) (r : D.Row) (hr : D.diff pl h r ≠ none) :
    rowDid (setY D Y) o pl h r = chg D pl h Y r -
      (∑ s ∈ Verif.Inter.controls D o pl h r, D.w s.1 s.2 * chg D pl h Y s) / ∑ s ∈ Verif.Inter.controls D o pl h r, D.w s.1 s.2 := by
  have key : ∀ s : D.Row, D.diff pl h s ≠ none → ((setY D Y).diff pl h s).getD 0 = chg D pl h Y s := by
    intro s hs
    rw [setY_diff]
    rcases hd : D.diff pl h s with _ | a
    · exact absurd hd hs
    · simp
  unfold rowDid
  rw [setY_controls, key r hr]
  congr 2
  refine Finset.sum_congr rfl fun s hs => ?_
  have : D.diff pl h s ≠ none := (Finset.mem_filter.1 hs).2.2.2.2.2
  rw [key s this]

variable (P : Measure Ω) (D : Frame ι β ℝ) (Y Y0 : Ω → (i : ι) × Fin (D.n i) → ℝ) (trend : β → ℤ → ℝ)

/-- Mean change of a row that is untreated in all its periods. -/
theorem chg_untreated (hA : StatusQuoTrends P D Y Y0 trend) (hg : Gapless D) (pl : Bool) (h : ℕ) (r : D.Row) (hd : D.diff pl h r ≠ none)
    (hF : ((D.time r : ℤ) : WithTop ℤ) < D.F r.1 ∨ pl = true ∧ ((D.time r - h : ℤ) : WithTop ℤ) < D.F r.1) :
    chg D pl h (expected P Y) r =
      if pl then trend (D.cell r.1) (D.time r - 2 * h) - trend (D.cell r.1) (D.time r - h)
      else trend (D.cell r.1) (D.time r) - trend (D.cell r.1) (D.time r - h) := by
  obtain ⟨h1, h2⟩ := diff_rows hd
  obtain ⟨i, k⟩ := r
  dsimp only at h1 h2
  have hk : ∀ m (hm : m ≤ k.1), D.t i ⟨k.1 - m, lt_of_le_of_lt (Nat.sub_le _ _) k.2⟩ = D.time ⟨i, k⟩ - m := by
    intro m hm
    have := hg i ⟨k.1 - m, lt_of_le_of_lt (Nat.sub_le _ _) k.2⟩ k
    unfold Frame.time
    dsimp only at this ⊢
    rw [Nat.cast_sub hm] at this
    omega
  have hle : ∀ m : ℕ, (h ≤ m ∨ pl = false) → ((D.time ⟨i, k⟩ - m : ℤ) : WithTop ℤ) < D.F i := by
    intro m hm
    rcases hF with hF | ⟨hp, hF⟩
    · exact lt_of_le_of_lt (WithTop.coe_le_coe.2 (by omega)) hF
    · rcases hm with hm | hm
      · exact lt_of_le_of_lt (WithTop.coe_le_coe.2 (by omega)) hF
      · rw [hm] at hp; simp at hp
  have hE : ∀ m (hm : m ≤ k.1), (h ≤ m ∨ pl = false) → expected P Y ⟨i, ⟨k.1 - m, lt_of_le_of_lt (Nat.sub_le _ _) k.2⟩⟩ =
      expected P Y0 ⟨i, ⟨k.1 - m, lt_of_le_of_lt (Nat.sub_le _ _) k.2⟩⟩ := by
    intro m hm hh
    refine hA.noAnticipation _ ?_
    dsimp only
    rw [hk m hm]
    exact hle m hh
  cases pl
  · simp only [chg, above, Bool.false_eq_true, if_false, dif_pos h1]
    rw [hE h h1 (Or.inr rfl)]
    have e0 : expected P Y ⟨i, k⟩ = expected P Y0 ⟨i, k⟩ := by
      have := hE 0 (Nat.zero_le _) (Or.inr rfl)
      simpa using this
    rw [e0, hA.parallel, hk h h1]
    rfl
  · have h2' := h2 rfl
    simp only [chg, above, if_true, dif_pos h1, dif_pos h2']
    rw [hE h h1 (Or.inl le_rfl), hE (2 * h) h2' (Or.inl (by omega)), hA.parallel, hk h h1, hk (2 * h) h2']
    push_cast
    rfl

/-- Mean difference-in-differences of a switcher row. -/
theorem rowDid_mean (hA : StatusQuoTrends P D Y Y0 trend) (hg : Gapless D) (o : Opt ℝ) (pl : Bool) (h : ℕ) (r : D.Row)
    (hr : r ∈ switcherRows D o pl h) :
    Integrable (fun ω => rowDid (setY D (Y ω)) o pl h r) P ∧
      ∫ ω, rowDid (setY D (Y ω)) o pl h r ∂P = if pl then 0 else expected P Y r - expected P Y0 r := by
  obtain ⟨hF, _, _, _, hd, hw⟩ := (Finset.mem_filter.1 hr).2
  simp only [setY_rowDid _ _ _ _ _ _ hd]
  obtain ⟨a1, a2⟩ := chg_integral P D Y hA.int pl h r
  obtain ⟨b1, b2⟩ := sum_integral P (Verif.Inter.controls D o pl h r) (fun ω s => D.w s.1 s.2 * chg D pl h (Y ω) s)
    fun s _ => (chg_integral P D Y hA.int pl h s).1.const_mul _
  refine ⟨a1.sub (b1.div_const _), ?_⟩
  rw [integral_sub a1 (b1.div_const _), integral_div, a2, b2]
  have hc : ∀ s ∈ Verif.Inter.controls D o pl h r, ∫ ω, D.w s.1 s.2 * chg D pl h (Y ω) s ∂P = D.w s.1 s.2 *
      (if pl then trend (D.cell r.1) (D.time r - 2 * h) - trend (D.cell r.1) (D.time r - h)
      else trend (D.cell r.1) (D.time r) - trend (D.cell r.1) (D.time r - h)) := by
    intro s hs
    obtain ⟨e1, e2, e3, _, e5⟩ := (Finset.mem_filter.1 hs).2
    rw [integral_const_mul, (chg_integral P D Y hA.int pl h s).2,
      chg_untreated P D Y Y0 trend hA hg pl h s e5 (Or.inl (by rw [e1]; exact e3)), e1, e2]
  rw [Finset.sum_congr rfl hc, ← Finset.sum_mul, mul_div_cancel_left₀ _ hw.ne']
  cases pl
  · simp only [Bool.false_eq_true, if_false]
    obtain ⟨h1, _⟩ := diff_rows hd
    have hk : D.t r.1 ⟨r.2.1 - h, lt_of_le_of_lt (Nat.sub_le _ _) r.2.2⟩ = D.time r - h := by
      have := hg r.1 ⟨r.2.1 - h, lt_of_le_of_lt (Nat.sub_le _ _) r.2.2⟩ r.2
      unfold Frame.time
      dsimp only at this ⊢
      rw [Nat.cast_sub h1] at this
      omega
    have e1 : expected P Y ⟨r.1, ⟨r.2.1 - h, lt_of_le_of_lt (Nat.sub_le _ _) r.2.2⟩⟩ =
        expected P Y0 ⟨r.1, ⟨r.2.1 - h, lt_of_le_of_lt (Nat.sub_le _ _) r.2.2⟩⟩ := by
      refine hA.noAnticipation _ ?_
      dsimp only
      rw [hk, hF]
      exact WithTop.coe_lt_coe.2 (by omega)
    have e2 := hA.parallel r.1 r.2 ⟨r.2.1 - h, lt_of_le_of_lt (Nat.sub_le _ _) r.2.2⟩
    rw [hk] at e2
    simp only [chg, above, Bool.false_eq_true, if_false, dif_pos h1]
    rw [e1]
    have e3 : (⟨r.1, r.2⟩ : D.Row) = r := rfl
    rw [e3] at e2
    unfold Frame.time at e2 ⊢
    linarith
  · rw [chg_untreated P D Y Y0 trend hA hg true h r hd (Or.inr ⟨rfl, by rw [hF]; exact WithTop.coe_lt_coe.2 (by omega)⟩)]
    simp

/-- **C255.**  Effects of `did_multiplegt`: for every design whose units are observed in consecutive periods (any weights, entry and exit, missing
outcomes, any options) the estimate at horizon `h` is unbiased for the weighted mean, over the units `h` periods past their switch with controls,
of the expected difference between their outcome and their status-quo outcome. -/
theorem C255_effect (hA : StatusQuoTrends P D Y Y0 trend) (hg : Gapless D) (o : Opt ℝ) (h : ℕ) (heps : 0 < o.eps)
    (hN : o.eps ≤ ∑ r ∈ switcherRows D o false h, D.w r.1 r.2) :
    ∃ X : Ω → ℝ, (∀ ω, estimate (setY D (Y ω)) o false h = some (X ω)) ∧ Integrable X P ∧
      ∫ ω, X ω ∂P = (∑ r ∈ switcherRows D o false h, D.w r.1 r.2 * (expected P Y r - expected P Y0 r)) /
        ∑ r ∈ switcherRows D o false h, D.w r.1 r.2 := by
  refine ⟨fun ω => (∑ r ∈ switcherRows D o false h, D.w r.1 r.2 * rowDid (setY D (Y ω)) o false h r) /
    ∑ r ∈ switcherRows D o false h, D.w r.1 r.2, fun ω => ?_, ?_⟩
  · have := C57_weighted (setY D (Y ω)) o false h heps (by rw [setY_switcherRows]; exact hN)
    rw [setY_switcherRows] at this
    exact this
  · obtain ⟨b1, b2⟩ := sum_integral P (switcherRows D o false h) (fun ω r => D.w r.1 r.2 * rowDid (setY D (Y ω)) o false h r)
      fun r hr => (rowDid_mean P D Y Y0 trend hA hg o false h r hr).1.const_mul _
    refine ⟨b1.div_const _, ?_⟩
    rw [integral_div, b2]
    congr 1
    refine Finset.sum_congr rfl fun r hr => ?_
    rw [integral_const_mul, (rowDid_mean P D Y Y0 trend hA hg o false h r hr).2, if_neg (by simp)]

/-- **C255.**  Under the same assumptions every placebo has mean zero. -/
theorem C255_placebo (hA : StatusQuoTrends P D Y Y0 trend) (hg : Gapless D) (o : Opt ℝ) (h : ℕ) (heps : 0 < o.eps)
    (hN : o.eps ≤ ∑ r ∈ switcherRows D o true h, D.w r.1 r.2) :
    ∃ X : Ω → ℝ, (∀ ω, estimate (setY D (Y ω)) o true h = some (X ω)) ∧ Integrable X P ∧ ∫ ω, X ω ∂P = 0 := by
  refine ⟨fun ω => (∑ r ∈ switcherRows D o true h, D.w r.1 r.2 * rowDid (setY D (Y ω)) o true h r) /
    ∑ r ∈ switcherRows D o true h, D.w r.1 r.2, fun ω => ?_, ?_⟩
  · have := C57_weighted (setY D (Y ω)) o true h heps (by rw [setY_switcherRows]; exact hN)
    rw [setY_switcherRows] at this
    exact this
  · obtain ⟨b1, b2⟩ := sum_integral P (switcherRows D o true h) (fun ω r => D.w r.1 r.2 * rowDid (setY D (Y ω)) o true h r)
      fun r hr => (rowDid_mean P D Y Y0 trend hA hg o true h r hr).1.const_mul _
    refine ⟨b1.div_const _, ?_⟩
    rw [integral_div, b2, Finset.sum_eq_zero, zero_div]
    intro r hr
    rw [integral_const_mul, (rowDid_mean P D Y Y0 trend hA hg o true h r hr).2, if_pos rfl, mul_zero]

/-- **C255.**  Normalised effects, when treatments stay on one side of the baseline: unbiased for the weighted sum of the effects over the weighted
sum of the absolute cumulated treatment changes. -/
theorem C255_normalised (hA : StatusQuoTrends P D Y Y0 trend) (hg : Gapless D) (o : Opt ℝ) (h : ℕ) (heps : 0 < o.eps)
    (hN : o.eps ≤ ∑ r ∈ switcherRows D o false h, D.w r.1 r.2)
    (hin : ∀ i, D.S i = 1 → ∀ k x, D.d i k = some x → D.dsq i ≤ x)
    (hout : ∀ i, D.S i ≠ 1 → ∀ k x, D.d i k = some x → x ≤ D.dsq i)
    (hdose : ∑ r ∈ switcherRows D o false h, D.w r.1 r.2 * |doseSum D h r.1| ≠ 0) :
    ∃ X : Ω → ℝ, (∀ ω, normalised (setY D (Y ω)) o false h = some (X ω)) ∧ Integrable X P ∧
      ∫ ω, X ω ∂P = (∑ r ∈ switcherRows D o false h, D.w r.1 r.2 * (expected P Y r - expected P Y0 r)) /
        ∑ r ∈ switcherRows D o false h, D.w r.1 r.2 * |doseSum D h r.1| := by
  obtain ⟨X, h1, h2, h3⟩ := C255_effect P D Y Y0 trend hA hg o h heps hN
  have hW : 0 < ∑ r ∈ switcherRows D o false h, D.w r.1 r.2 := lt_of_lt_of_le heps hN
  refine ⟨fun ω => X ω / ((∑ r ∈ switcherRows D o false h, D.w r.1 r.2 * |doseSum D h r.1|) / ∑ r ∈ switcherRows D o false h, D.w r.1 r.2),
    fun ω => ?_, h2.div_const _, ?_⟩
  · have e := C83_weighted (setY D (Y ω)) o false h (by rw [setY_switcherRows]; exact hW) hin hout
    rw [setY_switcherRows] at e
    unfold normalised
    rw [h1 ω, e]
    simp only [Option.map_some, Option.getD_some]
    have hne : (∑ r ∈ switcherRows D o false h, D.w r.1 r.2 * |doseSum D h r.1|) / ∑ r ∈ switcherRows D o false h, D.w r.1 r.2 ≠ 0 :=
      div_ne_zero hdose hW.ne'
    exact congrArg some (if_neg hne)
  · rw [integral_div, h3, div_div_div_cancel_right₀ hW.ne']

/-- **C255.**  If every treatment change raises the treatment and one unit of treatment in one period shifts the outcome by `b`, the normalised effect
at every horizon is unbiased for `b`. -/
theorem C255_slope (hA : StatusQuoTrends P D Y Y0 trend) (hg : Gapless D) (o : Opt ℝ) (h : ℕ) (heps : 0 < o.eps)
    (hN : o.eps ≤ ∑ r ∈ switcherRows D o false h, D.w r.1 r.2)
    (hS : ∀ r ∈ switcherRows D o false h, D.S r.1 = 1)
    (hin : ∀ i, D.S i = 1 → ∀ k x, D.d i k = some x → D.dsq i ≤ x)
    (hout : ∀ i, D.S i ≠ 1 → ∀ k x, D.d i k = some x → x ≤ D.dsq i)
    (hdose : ∑ r ∈ switcherRows D o false h, D.w r.1 r.2 * |doseSum D h r.1| ≠ 0) (b : ℝ)
    (hb : ∀ r ∈ switcherRows D o false h, expected P Y r - expected P Y0 r = b * doseSum D h r.1) :
    ∃ X : Ω → ℝ, (∀ ω, normalised (setY D (Y ω)) o false h = some (X ω)) ∧ Integrable X P ∧ ∫ ω, X ω ∂P = b := by
  obtain ⟨X, h1, h2, h3⟩ := C255_normalised P D Y Y0 trend hA hg o h heps hN hin hout hdose
  refine ⟨X, h1, h2, ?_⟩
  rw [h3, div_eq_iff hdose, Finset.mul_sum]
  refine Finset.sum_congr rfl fun r hr => ?_
  rw [hb r hr, abs_of_nonneg (doseSum_nonneg (hin _ (hS r hr)))]
  ring

/-- **C255 (violated).**  If every treatment change lowers the treatment, it is unbiased for `-b`. -/
theorem C255_slope_violated (hA : StatusQuoTrends P D Y Y0 trend) (hg : Gapless D) (o : Opt ℝ) (h : ℕ) (heps : 0 < o.eps)
    (hN : o.eps ≤ ∑ r ∈ switcherRows D o false h, D.w r.1 r.2)
    (hS : ∀ r ∈ switcherRows D o false h, D.S r.1 = -1)
    (hin : ∀ i, D.S i = 1 → ∀ k x, D.d i k = some x → D.dsq i ≤ x)
    (hout : ∀ i, D.S i ≠ 1 → ∀ k x, D.d i k = some x → x ≤ D.dsq i)
    (hdose : ∑ r ∈ switcherRows D o false h, D.w r.1 r.2 * |doseSum D h r.1| ≠ 0) (b : ℝ)
    (hb : ∀ r ∈ switcherRows D o false h, expected P Y r - expected P Y0 r = b * doseSum D h r.1) :
    ∃ X : Ω → ℝ, (∀ ω, normalised (setY D (Y ω)) o false h = some (X ω)) ∧ Integrable X P ∧ ∫ ω, X ω ∂P = -b := by
  obtain ⟨X, h1, h2, h3⟩ := C255_normalised P D Y Y0 trend hA hg o h heps hN hin hout hdose
  refine ⟨X, h1, h2, ?_⟩
  rw [h3, div_eq_iff hdose, Finset.mul_sum]
  refine Finset.sum_congr rfl fun r hr => ?_
  rw [hb r hr, abs_of_nonpos (doseSum_nonpos (hout _ (by rw [hS r hr]; decide)))]
  ring

/-! ## Examples -/

/-- Four units over periods 1..4, weights 1 and 2, one missing outcome; unit 0 goes from treatment 0 to 1 in period 2, unit 1 from 0 to 2 in
period 3, the others keep 0. -/
def iD : Frame (Fin 4) ℕ ℝ where
  n := fun _ => 4
  t := fun _ k => 1 + k.1
  y := fun i k => if i = 3 ∧ k = 0 then none else some 0
  d := fun i k => some (if i = 0 ∧ 1 ≤ k.1 then 1 else if i = 1 ∧ 2 ≤ k.1 then 2 else 0)
  w := fun i _ => if i = 1 then 2 else 1
  F := ![((2 : ℤ) : WithTop ℤ), ((3 : ℤ) : WithTop ℤ), ⊤, ⊤]
  L := ![3, 2, 0, 0]
  S := ![1, 1, 0, 0]
  cell := fun _ => 0
  dsq := fun _ => 0

/-- Default options. -/
noncomputable def iO : Opt ℝ := ⟨false, .all, false, false, 1, 0, 1, 4, 1 / 10⟩

/-- Unit effect, trend `t²`, noise from a fair coin; treatment adds 5 per unit and period. -/
def iY0 (e : ℝ) (r : (i : Fin 4) × Fin (iD.n i)) : ℝ := 10 * (r.1 : ℕ) + (1 + (r.2.1 : ℝ)) ^ 2 + e * (r.2.1 : ℝ)

/-- Cumulated treatment. -/
def iDose (r : (i : Fin 4) × Fin (iD.n i)) : ℝ := if r.1 = 0 then (r.2.1 : ℝ) else if r.1 = 1 ∧ 2 ≤ r.2.1 then 2 * ((r.2.1 : ℝ) - 1) else 0

def iY (e : ℝ) (r : (i : Fin 4) × Fin (iD.n i)) : ℝ := iY0 e r + 5 * iDose r

theorem i_expected (r : (i : Fin 4) × Fin (iD.n i)) : expected coin iY0 r = 10 * (r.1 : ℕ) + (1 + (r.2.1 : ℝ)) ^ 2 ∧
    expected coin iY r = 10 * (r.1 : ℕ) + (1 + (r.2.1 : ℝ)) ^ 2 + 5 * iDose r := by
  unfold expected iY iY0
  rw [(coin_int _).2, (coin_int _).2]
  constructor <;> ring

theorem i_trends : StatusQuoTrends coin iD iY iY0 (fun _ t => (t : ℝ) ^ 2) where
  int := fun r => (coin_int _).1
  noAnticipation := by
    intro r hr
    rw [(i_expected r).1, (i_expected r).2]
    have : iDose r = 0 := by
      obtain ⟨i, k⟩ := r
      have h4 : k.1 < 4 := k.2
      fin_cases i
      · have h : ((1 + (k.1 : ℤ) : ℤ) : WithTop ℤ) < ((2 : ℤ) : WithTop ℤ) := hr
        have := WithTop.coe_lt_coe.1 h
        have h0 : k.1 = 0 := by omega
        simp [iDose, h0]
      · have h : ((1 + (k.1 : ℤ) : ℤ) : WithTop ℤ) < ((3 : ℤ) : WithTop ℤ) := hr
        have := WithTop.coe_lt_coe.1 h
        have h0 : ¬ 2 ≤ k.1 := by omega
        simp [iDose, h0]
      · simp [iDose]
      · simp [iDose]
    rw [this]; ring
  parallel := by
    intro i k k'
    rw [(i_expected _).1, (i_expected _).1]
    simp only [iD]
    push_cast
    ring

theorem i_gapless : Gapless iD := by
  intro i k k'
  simp only [iD]
  ring

theorem i_switchers : switcherRows iD iO false 1 = {(⟨0, (1 : Fin 4)⟩ : iD.Row), (⟨1, (2 : Fin 4)⟩ : iD.Row)} := by
  have hw : ∀ s : iD.Row, 0 < iD.w s.1 s.2 := by
    intro s
    simp only [iD]
    split <;> norm_num
  have hc : ∀ k : Fin 4, 1 ≤ k.1 → (⟨2, k⟩ : iD.Row) ∈ Verif.Inter.controls iD iO false 1 ⟨2, k⟩ := by
    intro k hk
    refine Finset.mem_filter.2 ⟨Finset.mem_univ _, rfl, rfl, ?_, fun h => ?_, ?_⟩
    · exact WithTop.coe_lt_top _
    · simp [iO] at h
    · simp [Frame.diff, Frame.shift, iD, sub?, hk]
  have hpos : ∀ r : iD.Row, 1 ≤ r.2.1 → 0 < ∑ s ∈ Verif.Inter.controls iD iO false 1 r, iD.w s.1 s.2 := by
    intro r hr
    refine Finset.sum_pos (fun s _ => hw s) ⟨⟨2, r.2⟩, ?_⟩
    have := (Finset.mem_filter.1 (hc r.2 hr)).2
    exact Finset.mem_filter.2 ⟨Finset.mem_univ _, rfl, rfl, this.2.2.1, this.2.2.2.1, this.2.2.2.2⟩
  ext r
  simp only [Finset.mem_insert, Finset.mem_singleton]
  constructor
  · intro hr
    have h := (Finset.mem_filter.1 hr).2.1
    obtain ⟨i, k⟩ := r
    have h4 : k.1 < 4 := k.2
    fin_cases i
    · left
      have h' : ((2 : ℤ) : WithTop ℤ) = ((1 + (k.1 : ℤ) - (1 : ℕ) + 1 : ℤ) : WithTop ℤ) := h
      have := WithTop.coe_inj.1 h'
      have : k = (1 : Fin 4) := Fin.ext (by push_cast at this; show k.1 = 1; omega)
      rw [this]; rfl
    · right
      have h' : ((3 : ℤ) : WithTop ℤ) = ((1 + (k.1 : ℤ) - (1 : ℕ) + 1 : ℤ) : WithTop ℤ) := h
      have := WithTop.coe_inj.1 h'
      have : k = (2 : Fin 4) := Fin.ext (by push_cast at this; show k.1 = 2; omega)
      rw [this]; rfl
    · exact absurd h.symm WithTop.coe_ne_top
    · exact absurd h.symm WithTop.coe_ne_top
  · rintro (rfl | rfl)
    · refine Finset.mem_filter.2 ⟨Finset.mem_univ _, rfl, ?_, ?_, rfl, ?_, hpos _ (by decide)⟩
      · show (1 : ℤ) ≤ 3; norm_num
      · show (1 : ℤ) ≠ 0; norm_num
      · simp [Frame.diff, Frame.shift, iD, sub?]
    · refine Finset.mem_filter.2 ⟨Finset.mem_univ _, rfl, ?_, ?_, rfl, ?_, hpos _ (by decide)⟩
      · show (1 : ℤ) ≤ 2; norm_num
      · show (1 : ℤ) ≠ 0; norm_num
      · simp [Frame.diff, Frame.shift, iD, sub?]

theorem i_weight : ∑ r ∈ switcherRows iD iO false 1, iD.w r.1 r.2 = 3 := by
  rw [i_switchers, Finset.sum_pair (by decide)]
  simp [iD]
  norm_num

theorem i_doses : doseSum iD 1 0 = 1 ∧ doseSum iD 1 1 = 2 := by
  have e : ∀ i, doseSum iD 1 i = ∑ k : Fin 4, if iD.F i = ((1 + k.1 : ℤ) : WithTop ℤ) then (if i = 0 ∧ 1 ≤ k.1 then 1 else if i = 1 ∧ 2 ≤ k.1 then 2 else 0) else 0 := by
    intro i
    unfold doseSum
    show ∑ k : Fin 4, _ = _
    refine Finset.sum_congr rfl fun k _ => ?_
    have : (iD.F i ≤ (iD.t i k : WithTop ℤ) ∧ ((iD.t i k : ℤ) + 1 : WithTop ℤ) ≤ iD.F i + ((1 : ℕ) : ℤ)) ↔ iD.F i = ((1 + k.1 : ℤ) : WithTop ℤ) := by
      fin_cases i <;> fin_cases k <;> decide
    by_cases hq : iD.F i = ((1 + k.1 : ℤ) : WithTop ℤ)
    · rw [if_pos (this.2 hq), if_pos hq]; simp [iD]
    · rw [if_neg fun h => hq (this.1 h), if_neg hq]
  constructor
  · rw [e, Finset.sum_eq_single (1 : Fin 4)]
    · rw [if_pos (by decide)]; simp
    · intro k _ hk
      rw [if_neg]
      intro h
      exact hk (by revert h; fin_cases k <;> decide)
    · simp
  · rw [e, Finset.sum_eq_single (2 : Fin 4)]
    · rw [if_pos (by decide)]; simp
    · intro k _ hk
      rw [if_neg]
      intro h
      exact hk (by revert h; fin_cases k <;> decide)
    · simp

theorem i_sides : (∀ i, iD.S i = 1 → ∀ k x, iD.d i k = some x → iD.dsq i ≤ x) ∧ (∀ i, iD.S i ≠ 1 → ∀ k x, iD.d i k = some x → x ≤ iD.dsq i) := by
  constructor
  · intro i _ k x hx
    simp only [iD, Option.some.injEq] at hx ⊢
    rw [← hx]
    split_ifs <;> norm_num
  · intro i hi k x hx
    have h0 : i ≠ 0 := by rintro rfl; exact hi rfl
    have h1 : i ≠ 1 := by rintro rfl; exact hi rfl
    simp only [iD, Option.some.injEq] at hx ⊢
    rw [← hx, if_neg (fun h => h0 h.1), if_neg (fun h => h1 h.1)]

theorem i_effect : ∀ r ∈ switcherRows iD iO false 1, expected coin iY r - expected coin iY0 r = 5 * doseSum iD 1 r.1 := by
  intro r hr
  rw [(i_expected r).1, (i_expected r).2]
  rw [i_switchers, Finset.mem_insert, Finset.mem_singleton] at hr
  rcases hr with rfl | rfl
  · simp [i_doses.1, iDose]
  · simp [i_doses.2, iDose]
    norm_num

theorem i_denominator : ∑ r ∈ switcherRows iD iO false 1, iD.w r.1 r.2 * |doseSum iD 1 r.1| = 5 := by
  rw [i_switchers, Finset.sum_pair (by decide)]
  simp only [i_doses.1, i_doses.2]
  simp [iD]
  norm_num

/-- The estimate at horizon 1 is unbiased for `(1 · 5 + 2 · 10) / 3`. -/
example : ∃ X : ℝ → ℝ, (∀ e, estimate (setY iD (iY e)) iO false 1 = some (X e)) ∧ Integrable X coin ∧ ∫ e, X e ∂coin = 25 / 3 := by
  obtain ⟨X, h1, h2, h3⟩ := C255_effect coin iD iY iY0 _ i_trends i_gapless iO 1 (by norm_num [iO]) (by rw [i_weight]; norm_num [iO])
  refine ⟨X, h1, h2, ?_⟩
  rw [h3, i_weight, Finset.sum_congr rfl fun r hr => by rw [i_effect r hr], i_switchers, Finset.sum_pair (by decide)]
  simp only [i_doses.1, i_doses.2]
  simp [iD]
  norm_num

example : ∃ X : ℝ → ℝ, (∀ e, normalised (setY iD (iY e)) iO false 1 = some (X e)) ∧ Integrable X coin ∧ ∫ e, X e ∂coin = 5 :=
  C255_slope coin iD iY iY0 _ i_trends i_gapless iO 1 (by norm_num [iO]) (by rw [i_weight]; norm_num [iO])
    (by
      intro r hr
      rw [i_switchers, Finset.mem_insert, Finset.mem_singleton] at hr
      rcases hr with rfl | rfl <;> rfl)
    i_sides.1 i_sides.2 (by rw [i_denominator]; norm_num) 5 i_effect

example : ∃ X : ℝ → ℝ, (∀ e, normalised (setY iD (iY e)) iO false 1 = some (X e)) ∧ Integrable X coin ∧ ∫ e, X e ∂coin =
    (∑ r ∈ switcherRows iD iO false 1, iD.w r.1 r.2 * (expected coin iY r - expected coin iY0 r)) / 5 := by
  have := C255_normalised coin iD iY iY0 _ i_trends i_gapless iO 1 (by norm_num [iO]) (by rw [i_weight]; norm_num [iO]) i_sides.1 i_sides.2
    (by rw [i_denominator]; norm_num)
  rwa [i_denominator] at this

/-- The placebo of unit 1 (periods 1 and 2 before its switch in period 3) is reported and has mean zero. -/
example : ∃ X : ℝ → ℝ, (∀ e, estimate (setY iD (iY e)) iO true 1 = some (X e)) ∧ Integrable X coin ∧ ∫ e, X e ∂coin = 0 := by
  have hw : ∀ s : iD.Row, 0 < iD.w s.1 s.2 := by
    intro s
    simp only [iD]
    split <;> norm_num
  refine C255_placebo coin iD iY iY0 _ i_trends i_gapless iO 1 (by norm_num [iO]) ?_
  have hm : (⟨1, (2 : Fin 4)⟩ : iD.Row) ∈ switcherRows iD iO true 1 := by
    refine Finset.mem_filter.2 ⟨Finset.mem_univ _, rfl, ?_, ?_, rfl, ?_, Finset.sum_pos (fun s _ => hw s) ⟨⟨2, (2 : Fin 4)⟩, ?_⟩⟩
    · show (1 : ℤ) ≤ 2; norm_num
    · show (1 : ℤ) ≠ 0; norm_num
    · simp [Frame.diff, Frame.shift, iD, sub?]
    · refine Finset.mem_filter.2 ⟨Finset.mem_univ _, rfl, rfl, WithTop.coe_lt_top _, fun h => ?_, ?_⟩
      · simp [iO] at h
      · simp [Frame.diff, Frame.shift, iD, sub?]
  refine le_trans ?_ (Finset.single_le_sum (fun s _ => (hw s).le) hm)
  show (1 / 10 : ℝ) ≤ if (1 : Fin 4) = 1 then 2 else 1
  norm_num

/-- The same design with treatments that are withdrawn. -/
noncomputable abbrev iDout : Frame (Fin 4) ℕ ℝ := { iD with S := ![-1, -1, 0, 0], d := fun i k => (iD.d i k).map fun x => -x }

theorem iout_switchers : switcherRows iDout iO false 1 = switcherRows iD iO false 1 := by
  ext r
  have hS : Admitted iO.dir (iDout.S r.1) ↔ Admitted iO.dir (iD.S r.1) := by
    obtain ⟨i, k⟩ := r
    show (iDout.S i ≠ 0) ↔ (iD.S i ≠ 0)
    fin_cases i <;> simp [iDout, iD]
  constructor
  · intro h
    have h' := (Finset.mem_filter.1 h).2
    exact Finset.mem_filter.2 ⟨Finset.mem_univ _, h'.1, h'.2.1, hS.1 h'.2.2.1, h'.2.2.2⟩
  · intro h
    have h' := (Finset.mem_filter.1 h).2
    exact Finset.mem_filter.2 ⟨Finset.mem_univ _, h'.1, h'.2.1, hS.2 h'.2.2.1, h'.2.2.2⟩

theorem iout_dose (i : Fin 4) : doseSum iDout 1 i = - doseSum iD 1 i := by
  unfold doseSum
  rw [← Finset.sum_neg_distrib]
  refine Finset.sum_congr rfl fun k _ => ?_
  by_cases h : iD.F i ≤ (iD.t i k : WithTop ℤ) ∧ ((iD.t i k : ℤ) + 1 : WithTop ℤ) ≤ iD.F i + ((1 : ℕ) : ℤ)
  · refine (if_pos h).trans ?_
    refine Eq.trans ?_ (congrArg Neg.neg (if_pos h).symm)
    simp only [iDout, iD, Option.map_some, Option.getD_some]
    ring
  · refine (if_neg h).trans ?_
    refine Eq.trans ?_ (congrArg Neg.neg (if_neg h).symm)
    rw [neg_zero]

/-- Withdrawing a unit of treatment raises the outcome by 5, so a unit of treatment shifts it by `-5`; the normalised effect is unbiased for `5`. -/
example : ∃ X : ℝ → ℝ, (∀ e, normalised (setY iDout (iY e)) iO false 1 = some (X e)) ∧ Integrable X coin ∧ ∫ e, X e ∂coin = 5 := by
  have hA : StatusQuoTrends coin iDout iY iY0 (fun _ t => (t : ℝ) ^ 2) := ⟨i_trends.int, i_trends.noAnticipation, i_trends.parallel⟩
  have hw : ∑ r ∈ switcherRows iDout iO false 1, iDout.w r.1 r.2 = 3 := by rw [iout_switchers]; exact i_weight
  have := C255_slope_violated coin iDout iY iY0 _ hA i_gapless iO 1 (by norm_num [iO]) (by rw [hw]; norm_num [iO])
    (by
      intro r hr
      rw [iout_switchers, i_switchers, Finset.mem_insert, Finset.mem_singleton] at hr
      rcases hr with rfl | rfl <;> rfl)
    (by
      intro i hi
      fin_cases i <;> simp [iDout] at hi <;> norm_num at hi)
    (by
      intro i _ k x hx
      simp only [iDout, iD, Option.map_some, Option.some.injEq] at hx ⊢
      rw [← hx]
      split_ifs <;> norm_num)
    (by
      have e : ∑ r ∈ switcherRows iDout iO false 1, iDout.w r.1 r.2 * |doseSum iDout 1 r.1| = 5 := by
        simp only [iout_dose, abs_neg]
        rw [iout_switchers]
        exact i_denominator
      rw [e]; norm_num) (-5)
    (by
      intro r hr
      rw [iout_switchers] at hr
      rw [iout_dose, neg_mul_neg]
      exact i_effect r hr)
  rwa [neg_neg] at this

end Verif.Ident
