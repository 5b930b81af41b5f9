import Verif.Inter.HorizonProps
import Verif.Inter.HorizonEx
import Mathlib.Data.List.MinMax

/-!
# Options, filters, normalisation, average effect, bootstrap of `did_multiplegt`: C59, C81-C84, C86-C88
-/

set_option linter.unusedSectionVars false
set_option linter.unusedSimpArgs false

namespace Verif.Inter

open Finset

/-! ## C59: number of horizons -/

/-- `max_effects_available`, `transformers.py:836-856`; `fs` holds the finite `F_g`. -/
def maxEffects (tmax : ℤ) (fs : List ℤ) : ℤ := ((fs.map fun f => tmax - f + 1).max?).getD 0

/-- `max_placebo_available`, `transformers.py:836-856`. -/
def maxPlacebo (tmin : ℤ) (fs : List ℤ) : ℤ := ((fs.map fun f => f - tmin - 1).max?).getD 0

/-- `config.effects` / `config.placebo` after the update, `transformers.py:858-874`. -/
def clamp (requested available : ℤ) : ℤ := if requested > available then available else requested

theorem le_maxD (xs : List ℤ) (h : ℤ) (hh : 1 ≤ h) : h ≤ (xs.max?).getD 0 ↔ ∃ x ∈ xs, h ≤ x := by
  cases hm : xs.max? with
  | none =>
    have : xs = [] := List.max?_eq_none_iff.1 hm
    subst this
    simp; omega
  | some m =>
    obtain ⟨h1, h2⟩ := List.max?_eq_some_iff.1 hm
    simp only [Option.getD_some]
    constructor
    · intro h'; exact ⟨m, h1, h'⟩
    · rintro ⟨x, hx, hx'⟩; exact le_trans hx' (h2 x hx)

/-- C59.  Horizon `h >= 1` is computed iff it was requested and some unit is observed `h` periods past its switch. -/
theorem C59_effects (requested tmax : ℤ) (fs : List ℤ) (h : ℤ) (hh : 1 ≤ h) :
    h ≤ clamp requested (maxEffects tmax fs) ↔ h ≤ requested ∧ ∃ f ∈ fs, f - 1 + h ≤ tmax := by
  have key : h ≤ maxEffects tmax fs ↔ ∃ f ∈ fs, f - 1 + h ≤ tmax := by
    unfold maxEffects
    rw [le_maxD _ _ hh]
    simp only [List.mem_map, exists_exists_and_eq_and]
    constructor <;> rintro ⟨f, hf, e⟩ <;> exact ⟨f, hf, by omega⟩
  rw [← key]
  unfold clamp
  split <;> omega

/-- C59.  Placebo horizon `h >= 1` is computed iff it was requested and some unit is observed `h` periods before the period
preceding its switch. -/
theorem C59_placebo (requested tmin : ℤ) (fs : List ℤ) (h : ℤ) (hh : 1 ≤ h) :
    h ≤ clamp requested (maxPlacebo tmin fs) ↔ h ≤ requested ∧ ∃ f ∈ fs, tmin ≤ f - 1 - h := by
  have key : h ≤ maxPlacebo tmin fs ↔ ∃ f ∈ fs, tmin ≤ f - 1 - h := by
    unfold maxPlacebo
    rw [le_maxD _ _ hh]
    simp only [List.mem_map, exists_exists_and_eq_and]
    constructor <;> rintro ⟨f, hf, e⟩ <;> exact ⟨f, hf, by omega⟩
  rw [← key]
  unfold clamp
  split <;> omega

/-- C59.  The request is used as it is when available, and never exceeded. -/
theorem C59_request (requested available : ℤ) :
    (requested ≤ available → clamp requested available = requested) ∧ clamp requested available ≤ requested ∧
      clamp requested available ≤ available := by
  unfold clamp
  refine ⟨fun h => if_neg (by omega), ?_, ?_⟩ <;> split <;> omega

example : clamp 5 (maxEffects 4 [2, 3]) = 3 ∧ clamp 2 (maxEffects 4 [2, 3]) = 2 ∧ clamp 5 (maxPlacebo 1 [2, 3]) = 1 ∧
    clamp 3 (maxEffects 4 []) = 0 := by decide

/-- Two units over periods 1..4, one switching in the last period. -/
def exLate : Balanced (Fin 2) ℕ ℚ where
  t0 := 1
  T := 4
  Y := fun i t => if i = 0 then t else 0
  F := ![((4 : ℤ) : WithTop ℤ), ⊤]
  cell := fun _ => 0
  S := ![1, 0]
  D := fun i t => if i = 0 ∧ 4 ≤ t then 1 else 0
  dsq := fun _ => 0
  hF := by decide +kernel

/-- C59 (violated for placebos).  Two placebo horizons are accepted as available, but the second has no estimate: a placebo
also needs the period `F_g - 1 + h`, which the bound ignores. -/
theorem C59_placebo_violated :
    clamp 2 (maxPlacebo exLate.t0 [4]) = 2 ∧ estimate exLate.frame (exLate.opt (1 / 10)) true 1 ≠ none ∧
    estimate exLate.frame (exLate.opt (1 / 10)) true 2 = none := by decide +kernel

section
variable {ι β K : Type*} [Fintype ι] [DecidableEq ι] [DecidableEq β] [Field K] [LinearOrder K] [IsStrictOrderedRing K]

/-! ## C81: `ControlsTimeFilter` -/

/-- Rows kept by `ControlsTimeFilter`, `transformers.py:742-752`. -/
def controlsTimeFilter (P : Frame ι β K) : Finset P.Row :=
  univ.filter fun r => ∃ s : P.Row, P.time s = P.time r ∧ P.cell s.1 = P.cell r.1 ∧ P.F s.1 = ⊤

/-- C81 (violated).  Documented controls are the units of the same baseline that have not switched YET; but every row of a
baseline in which all units eventually switch is removed before estimation. -/
theorem C81_all_switch_violated (P : Frame ι β K) (c : β) (hc : ∀ i, P.cell i = c → P.F i ≠ ⊤) (r : P.Row)
    (hr : P.cell r.1 = c) : r ∉ controlsTimeFilter P := by
  unfold controlsTimeFilter
  simp only [mem_filter, mem_univ, true_and, not_exists, not_and]
  intro s _ hs
  exact hc _ (hs.trans hr)

/-- C81.  When a unit of the baseline never switches and is observed in the period, the row is kept. -/
theorem C81_never_switcher_keeps (P : Frame ι β K) (r s : P.Row) (ht : P.time s = P.time r)
    (hc : P.cell s.1 = P.cell r.1) (hF : P.F s.1 = ⊤) : r ∈ controlsTimeFilter P := by
  unfold controlsTimeFilter
  simp only [mem_filter, mem_univ, true_and]
  exact ⟨s, ht, hc, hF⟩

/-- C81.  In a balanced panel, exactly the rows of baselines with a never-switching unit survive. -/
theorem C81_balanced (B : Balanced ι β K) (i : ι) (k : Fin B.T) :
    (⟨i, k⟩ : B.frame.Row) ∈ controlsTimeFilter B.frame ↔ ∃ j, B.cell j = B.cell i ∧ B.F j = ⊤ := by
  constructor
  · intro h
    by_contra hcon
    push Not at hcon
    exact C81_all_switch_violated B.frame (B.cell i) hcon ⟨i, k⟩ rfl h
  · rintro ⟨j, h1, h2⟩
    exact C81_never_switcher_keeps B.frame ⟨i, k⟩ ⟨j, k⟩ rfl h1 h2

end

/-- Two units over periods 1..4 with one baseline, switching at 2 and at 4: Design Restriction 1 holds. -/
def exBoth : Balanced (Fin 2) ℕ ℚ where
  t0 := 1
  T := 4
  Y := fun i t => if i = 0 then 3 * t else t
  F := ![((2 : ℤ) : WithTop ℤ), ((4 : ℤ) : WithTop ℤ)]
  cell := fun _ => 0
  S := ![1, 1]
  D := fun i t => if (i = 0 ∧ 2 ≤ t) ∨ (i = 1 ∧ 4 ≤ t) then 1 else 0
  dsq := fun _ => 0
  hF := by decide +kernel

/-- C81 (violated), concretely: the documented effect exists at horizons 1 and 2 (and the estimation step would report it),
yet no row reaches estimation. -/
theorem C81_design_violated : exBoth.docSwitchers false 1 = {0} ∧ exBoth.docSwitchers false 2 = {0} ∧
    estimate exBoth.frame (exBoth.opt (1 / 10)) false 2 = some 4 ∧ controlsTimeFilter exBoth.frame = ∅ := by
  decide +kernel

/-! ## C84: `FgVariationFilter` -/

/-- `_F_g_for_std`, `transformers.py:722-724`. -/
def fForStd (F : WithTop ℤ) : ℤ := F.untopD 0

/-- `std().over(cell) > 0`: two rows of the cell have different values, `transformers.py:726-728`.  The rounding to three
decimals is not modelled. -/
def fgVariation {ι β : Type*} [Fintype ι] [DecidableEq β] (F : ι → WithTop ℤ) (cell : ι → β) (i : ι) : Bool :=
  decide (∃ j j', cell j = cell i ∧ cell j' = cell i ∧ fForStd (F j) ≠ fForStd (F j'))

/-- C84.  If no unit first switches in period 0, exactly the units of baselines with two different first-switch dates (never
counting as a date) are kept, as Design Restriction 1 asks. -/
theorem C84_variation {ι β : Type*} [Fintype ι] [DecidableEq β] (F : ι → WithTop ℤ) (cell : ι → β) (i : ι)
    (h0 : ∀ j, F j ≠ ((0 : ℤ) : WithTop ℤ)) :
    fgVariation F cell i = true ↔ ∃ j j', cell j = cell i ∧ cell j' = cell i ∧ F j ≠ F j' := by
  unfold fgVariation
  rw [decide_eq_true_iff]
  have key : ∀ j j', fForStd (F j) = fForStd (F j') ↔ F j = F j' := by
    intro j j'
    have a := h0 j
    have b := h0 j'
    revert a b
    unfold fForStd
    induction F j using WithTop.recTopCoe with
    | top =>
      induction F j' using WithTop.recTopCoe with
      | top => simp
      | coe y =>
        intro _ b
        have : y ≠ 0 := fun e => b (by rw [e])
        simp [WithTop.untopD_top, WithTop.untopD_coe, this.symm]
    | coe x =>
      induction F j' using WithTop.recTopCoe with
      | top =>
        intro a _
        have : x ≠ 0 := fun e => a (by rw [e])
        simp [WithTop.untopD_top, WithTop.untopD_coe, this]
      | coe y => simp [WithTop.untopD_coe]
  simp only [ne_eq, key]

example : (∀ j, exB.F j ≠ ((0 : ℤ) : WithTop ℤ)) ∧ fgVariation exB.F exB.cell 0 = true := by decide +kernel

/-- C84 (violated when a unit switches in period 0).  With periods numbered -1, 0, 1 and a switch at 0, the date is confused
with the code for "never" and the whole baseline is dropped, although it has a switcher and a never-switcher. -/
theorem C84_period_zero_violated :
    fgVariation (![((0 : ℤ) : WithTop ℤ), ⊤] : Fin 2 → WithTop ℤ) (fun _ => (0 : ℕ)) 0 = false ∧
    fgVariation (![((1 : ℤ) : WithTop ℤ), ⊤] : Fin 2 → WithTop ℤ) (fun _ => (0 : ℕ)) 0 = true := by decide +kernel

/-! ## C82: `same_switchers` -/

section
variable {ι β K : Type*} [Fintype ι] [DecidableEq ι] [DecidableEq β] [Field K] [LinearOrder K] [IsStrictOrderedRing K]

/-- Options for a balanced panel with the two same-switchers flags. -/
def Balanced.optSame (B : Balanced ι β K) (eps : K) (same samePl : Bool) (effects placebo : ℕ) : Opt K where
  onlyNever := false
  dir := .all
  same := same
  samePl := samePl
  effects := effects
  placebo := placebo
  tmin := B.t0
  tmax := B.last
  eps := eps

theorem used_balanced (B : Balanced ι β K) (eps : K) (n : ℕ) (h : ℕ) (hh : 1 ≤ h) (hn : h ≤ n)
    (hS : ∀ i, B.F i ≠ ⊤ → B.S i ≠ 0) (hnever : ∀ i, ∃ j, B.cell j = B.cell i ∧ B.F j = ⊤) (i : ι) :
    i ∈ usedUnits B.frame (B.optSame eps true false n 0) false h ↔ B.Fdoc i - 1 + n ≤ B.last := by
  have hsame : ∀ x, sameOk B.frame (B.optSame eps true false n 0) x = true ↔ (n : ℤ) ≤ B.last - B.Fdoc x + 1 := by
    intro x
    simp only [sameOk, Balanced.optSame, if_true, Bool.false_and, Bool.false_eq_true, if_false]
    exact decide_eq_true_iff
  rw [usedUnits_eq]
  constructor
  · rintro ⟨k, hk⟩
    unfold switcherRows at hk
    have := (hsame i).1 (mem_filter.1 hk).2.2.2.2.1
    omega
  · intro hL
    have hTop : B.F i ≠ ⊤ := by
      intro e
      have : B.Fdoc i = B.last + 1 := by unfold Balanced.Fdoc; rw [e]; rfl
      omega
    have hlow : B.t0 + 1 ≤ B.Fdoc i := by
      have := B.hF i
      unfold Balanced.Fdoc
      revert this hTop
      induction B.F i using WithTop.recTopCoe with
      | top => intro e; exact absurd rfl e
      | coe a => intro _ h; exact_mod_cast h
    have hb : (B.Fdoc i - 1 + h - B.t0).toNat < B.T := by
      have : B.last = B.t0 + B.T - 1 := rfl
      omega
    let k : Fin B.T := ⟨_, hb⟩
    have hk : B.t0 + (k.1 : ℤ) = B.Fdoc i - 1 + h := by
      show B.t0 + ((B.Fdoc i - 1 + h - B.t0).toNat : ℤ) = _
      omega
    have hd : h ≤ k.1 := by omega
    have hkT : B.t0 + (k.1 : ℤ) ≤ B.last := by omega
    obtain ⟨j, hj1, hj2⟩ := hnever i
    refine ⟨k, ?_⟩
    unfold switcherRows
    rw [mem_filter]
    refine ⟨mem_univ _, ?_, ?_, ?_, (hsame i).2 (by omega), ?_, ?_⟩
    · show B.F i = ((B.t0 + (k.1 : ℤ) - h + 1 : ℤ) : WithTop ℤ)
      rw [frame_F_of B (by omega)]; omega
    · show (h : ℤ) ≤ B.last - B.Fdoc i + 1
      omega
    · exact hS i hTop
    · show B.frame.diff false h ⟨i, k⟩ ≠ none
      rw [frame_diff, if_pos (by simpa using hd)]; simp
    · refine sum_pos (fun _ _ => ?_) ⟨⟨j, k⟩, ?_⟩
      · show (0 : K) < 1
        exact zero_lt_one
      · unfold controls
        rw [mem_filter]
        refine ⟨mem_univ _, rfl, hj1, ?_, ?_, ?_⟩
        · show _ < B.F j
          rw [hj2]; exact WithTop.coe_lt_top _
        · intro e; simp [Balanced.optSame] at e
        · show B.frame.diff false h ⟨j, k⟩ ≠ none
          rw [frame_diff, if_pos (by simpa using hd)]; simp

/-- C82 (effects).  With `same_switchers` alone, in a balanced panel where every baseline has a unit that never switches,
all effect horizons use the same units: those observed at the last requested horizon. -/
theorem C82_same_switchers (B : Balanced ι β K) (eps : K) (n : ℕ) (hS : ∀ i, B.F i ≠ ⊤ → B.S i ≠ 0)
    (hnever : ∀ i, ∃ j, B.cell j = B.cell i ∧ B.F j = ⊤) (h h' : ℕ) (hh : 1 ≤ h ∧ h ≤ n) (hh' : 1 ≤ h' ∧ h' ≤ n) :
    usedUnits B.frame (B.optSame eps true false n 0) false h = usedUnits B.frame (B.optSame eps true false n 0) false h' := by
  ext i
  rw [used_balanced B eps n h hh.1 hh.2 hS hnever, used_balanced B eps n h' hh'.1 hh'.2 hS hnever]

/-- C82 (violated).  `same_switchers_pl` without `same_switchers` has no effect on any estimate. -/
theorem C82_placebo_flag_ignored_violated (P : Frame ι β K) (o : Opt K) (ho : o.same = false) (pl : Bool) (h : ℕ) :
    estimate P { o with samePl := true } pl h = estimate P { o with samePl := false } pl h := by
  have hs : ∀ b, sameOk P { o with samePl := b } = fun _ => true := by
    intro b; funext i; unfold sameOk; simp [ho]
  have hsw : switcherRows P { o with samePl := true } pl h = switcherRows P { o with samePl := false } pl h := by
    ext r
    unfold switcherRows
    simp only [mem_filter, mem_univ, true_and, hs]
    rfl
  have hrow : rowDid P { o with samePl := true } pl h = rowDid P { o with samePl := false } pl h := rfl
  have hN : nSwW P { o with samePl := true } pl h = nSwW P { o with samePl := false } pl h := by
    rw [nSwW_eq, nSwW_eq, hsw]
  unfold estimate
  simp only [unitInf_sum, sum_infTemp, usedUnits_empty, hsw, hrow, hN]

end

/-- Three units over periods 1..5: switches at 3 and 5, one never. -/
def exSame : Balanced (Fin 3) ℕ ℚ where
  t0 := 1
  T := 5
  Y := fun i t => if i = 0 then t * t else if i = 1 then 3 * t * t else 0
  F := ![((3 : ℤ) : WithTop ℤ), ((5 : ℤ) : WithTop ℤ), ⊤]
  cell := fun _ => 0
  S := ![1, 1, 0]
  D := fun i t => if (i = 0 ∧ 3 ≤ t) ∨ (i = 1 ∧ 5 ≤ t) then 1 else 0
  dsq := fun _ => 0
  hF := by decide +kernel

example : (∀ i, exSame.F i ≠ ⊤ → exSame.S i ≠ 0) ∧ (∀ i, ∃ j, exSame.cell j = exSame.cell i ∧ exSame.F j = ⊤) ∧
    usedUnits exSame.frame (exSame.optSame (1 / 10) true false 2 0) false 1 = {0} := by decide +kernel

/-- C82 (violated).  With both flags set the effects no longer use the same units at all horizons: the placebo mask has
replaced the effect mask. -/
theorem C82_both_flags_violated :
    usedUnits exSame.frame (exSame.optSame (1 / 10) true true 2 1) false 1 = {0, 1} ∧
    usedUnits exSame.frame (exSame.optSame (1 / 10) true true 2 1) false 2 = {0} := by decide +kernel

/-- The same with a sixth period. -/
def exSamePl : Balanced (Fin 3) ℕ ℚ := { exSame with T := 6 }

/-- C82 (violated).  With `same_switchers_pl` (and no `same_switchers`) the two placebo horizons use different units. -/
theorem C82_placebos_violated :
    usedUnits exSamePl.frame (exSamePl.optSame (1 / 10) false true 2 2) true 1 = {0, 1} ∧
    usedUnits exSamePl.frame (exSamePl.optSame (1 / 10) false true 2 2) true 2 = {1} := by decide +kernel

end Verif.Inter
