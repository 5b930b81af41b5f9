import Verif.Inter.Options
import Mathlib.Algebra.Order.AbsoluteValue.Basic
import Mathlib.Algebra.Order.Group.Unbundled.Abs
import Mathlib.Algebra.BigOperators.Fin

/-!
# Normalisation (C83), average total effect (C86), bootstrap (C87), linear trends (C88)
-/

set_option linter.unusedSectionVars false
set_option linter.unusedSimpArgs false

namespace Verif.Inter

open Finset

variable {ι β K : Type*} [Fintype ι] [DecidableEq ι] [DecidableEq β] [Field K] [LinearOrder K] [IsStrictOrderedRing K]

/-! ## C83 -/

theorem eventRows_eq (P : Frame ι β K) (o : Opt K) (pl : Bool) (h : ℕ) : eventRows P o pl h = switcherRows P o pl h := by
  ext r
  unfold eventRows
  rw [mem_filter, dist_one_iff]
  simp

theorem doseSum_nonneg {P : Frame ι β K} {h : ℕ} {i : ι} (H : ∀ k x, P.d i k = some x → P.dsq i ≤ x) :
    0 ≤ doseSum P h i := by
  unfold doseSum
  refine sum_nonneg fun k _ => ?_
  split
  · cases hd : P.d i k with
    | none => simp
    | some x => simpa using H k x hd
  · exact le_rfl

theorem doseSum_nonpos {P : Frame ι β K} {h : ℕ} {i : ι} (H : ∀ k x, P.d i k = some x → x ≤ P.dsq i) :
    doseSum P h i ≤ 0 := by
  unfold doseSum
  refine sum_nonpos fun k _ => ?_
  split
  · cases hd : P.d i k with
    | none => simp
    | some x => simpa using H k x hd
  · exact le_rfl

/-- C83.  When treatments stay on one side of the baseline (Design Restriction 2), the normaliser is the weighted mean over
the switchers of the absolute value of their cumulated treatment change. -/
theorem C83_weighted (P : Frame ι β K) (o : Opt K) (pl : Bool) (h : ℕ)
    (hW : 0 < ∑ r ∈ switcherRows P o pl h, P.w r.1 r.2)
    (hin : ∀ i, P.S i = 1 → ∀ k x, P.d i k = some x → P.dsq i ≤ x)
    (hout : ∀ i, P.S i ≠ 1 → ∀ k x, P.d i k = some x → x ≤ P.dsq i) :
    deltaD P o pl h = some ((∑ r ∈ switcherRows P o pl h, P.w r.1 r.2 * |doseSum P h r.1|) /
      ∑ r ∈ switcherRows P o pl h, P.w r.1 r.2) := by
  unfold deltaD
  simp only [eventRows_eq]
  rw [if_neg hW.ne', sum_div]
  congr 1
  refine sum_congr rfl fun r _ => ?_
  have : (if P.S r.1 = 1 then doseSum P h r.1 else -doseSum P h r.1) = |doseSum P h r.1| := by
    by_cases e : P.S r.1 = 1
    · rw [if_pos e, abs_of_nonneg (doseSum_nonneg (hin _ e))]
    · rw [if_neg e, abs_of_nonpos (doseSum_nonpos (hout _ e))]
  rw [this]
  ring

/-- Documented cumulated treatment change `sum_{k<l} (D_{g,F_g+k} - D_{g,1})`. -/
def Balanced.dose (B : Balanced ι β K) (l : ℕ) (i : ι) : K :=
  ∑ j ∈ range l, (B.D i (B.Fdoc i + j) - B.dsq i)

theorem frame_doseSum (B : Balanced ι β K) (h : ℕ) (i : ι) (hT : B.F i ≠ ⊤) (hb : B.Fdoc i - 1 + h ≤ B.last) :
    doseSum B.frame h i = B.dose h i := by
  have hf : B.F i = ((B.Fdoc i : ℤ) : WithTop ℤ) := by
    unfold Balanced.Fdoc
    revert hT
    induction B.F i using WithTop.recTopCoe with
    | top => intro e; exact absurd rfl e
    | coe a => intro _; rfl
  have hlow : B.t0 + 1 ≤ B.Fdoc i := by
    have := B.hF i
    rw [hf] at this
    exact_mod_cast this
  have hlast : B.last = B.t0 + B.T - 1 := rfl
  unfold doseSum Balanced.dose
  have hcond : ∀ k : Fin B.T, (B.frame.F i ≤ (B.frame.t i k : WithTop ℤ) ∧
      ((B.frame.t i k : ℤ) + 1 : WithTop ℤ) ≤ B.frame.F i + (h : ℤ)) ↔
      (B.Fdoc i ≤ B.t0 + k.1 ∧ B.t0 + k.1 + 1 ≤ B.Fdoc i + h) := by
    intro k
    show (B.F i ≤ ((B.t0 + k.1 : ℤ) : WithTop ℤ) ∧ (((B.t0 + k.1 : ℤ) : WithTop ℤ) + 1) ≤ B.F i + (((h : ℕ) : ℤ) : WithTop ℤ)) ↔ _
    rw [hf]
    norm_cast
  have e1 : ∑ k : Fin (B.frame.n i), (if B.frame.F i ≤ (B.frame.t i k : WithTop ℤ) ∧
      ((B.frame.t i k : ℤ) + 1 : WithTop ℤ) ≤ B.frame.F i + (h : ℤ)
      then ((B.frame.d i k).map fun x => x - B.frame.dsq i).getD 0 else 0) =
      ∑ k : Fin B.T, (if (B.Fdoc i ≤ B.t0 + k.1 ∧ B.t0 + k.1 + 1 ≤ B.Fdoc i + h) then B.D i (B.t0 + k.1) - B.dsq i else 0) := by
    refine sum_congr rfl fun (k : Fin B.T) _ => ?_
    by_cases e : (B.Fdoc i ≤ B.t0 + k.1 ∧ B.t0 + k.1 + 1 ≤ B.Fdoc i + h)
    · rw [if_pos e, if_pos ((hcond k).2 e)]; rfl
    · rw [if_neg e, if_neg (fun e' => e ((hcond k).1 e'))]
  rw [e1, ← sum_filter]
  symm
  refine sum_bij (fun (j : ℕ) (hj : j ∈ range h) => (⟨(B.Fdoc i + j - B.t0).toNat, by
    have := mem_range.1 hj; omega⟩ : Fin B.T)) ?_ ?_ ?_ ?_
  · intro j hj
    have := mem_range.1 hj
    simp only [mem_filter, mem_univ, true_and]
    omega
  · intro a ha b hb' e
    have := congrArg Fin.val e
    simp only at this
    omega
  · intro k hk
    simp only [mem_filter, mem_univ, true_and] at hk
    refine ⟨(B.t0 + k.1 - B.Fdoc i).toNat, mem_range.2 (by omega), ?_⟩
    apply Fin.ext
    simp only
    omega
  · intro j hj
    have := mem_range.1 hj
    simp only
    congr 2
    omega

/-- C83.  In a balanced panel without crossing, the normaliser at every horizon is the documented
`(1/N_l) sum_g |delta^D_{g,l}|`. -/
theorem C83_documented (B : Balanced ι β K) (eps : K) (pl : Bool) (h : ℕ) (hh : 1 ≤ h)
    (hS : ∀ i, B.F i ≠ ⊤ → B.S i ≠ 0) (hne : B.docSwitchers pl h ≠ ∅)
    (hin : ∀ i, B.S i = 1 → ∀ t, B.dsq i ≤ B.D i t) (hout : ∀ i, B.S i ≠ 1 → ∀ t, B.D i t ≤ B.dsq i) :
    deltaD B.frame (B.opt eps) pl h =
      some ((∑ i ∈ B.docSwitchers pl h, |B.dose h i|) / (B.docSwitchers pl h).card) := by
  have hsum := frame_sum B eps pl h hh hS
  have hW : ∑ r ∈ switcherRows B.frame (B.opt eps) pl h, B.frame.w r.1 r.2 = ((B.docSwitchers pl h).card : K) := by
    rw [hsum (fun _ => 1) (fun r => B.frame.w r.1 r.2) (fun r _ => rfl)]
    simp
  have hcard : (0 : K) < ((B.docSwitchers pl h).card : K) := by
    have : 0 < (B.docSwitchers pl h).card := card_pos.2 (nonempty_iff_ne_empty.2 hne)
    exact_mod_cast this
  rw [C83_weighted B.frame (B.opt eps) pl h (by rw [hW]; exact hcard)
    (fun i e k x hx => by
      have : B.D i (B.t0 + k.1) = x := Option.some.inj hx
      rw [← this]; exact hin i e _)
    (fun i e k x hx => by
      have : B.D i (B.t0 + k.1) = x := Option.some.inj hx
      rw [← this]; exact hout i e _), hW]
  congr 2
  refine hsum (fun i => |B.dose h i|) _ ?_
  rintro ⟨i, k⟩ hr
  obtain ⟨hi, _⟩ := (frame_switcher B eps pl h hh hS i k).1 hr
  simp only [Balanced.docSwitchers, mem_filter, mem_univ, true_and] at hi
  have hT : B.F i ≠ ⊤ := by
    intro e
    have : B.Fdoc i = B.last + 1 := by unfold Balanced.Fdoc; rw [e]; rfl
    omega
  rw [frame_doseSum B h i hT hi.1]
  show (1 : K) * _ = _
  rw [one_mul]

example : (∀ i, exB.S i = 1 → ∀ t, exB.dsq i ≤ exB.D i t) ∧ (∀ i, exB.S i ≠ 1 → ∀ t, exB.D i t ≤ exB.dsq i) ∧
    deltaD exB.frame (exB.opt (1 / 10)) false 2 = some 2 := by
  refine ⟨?_, ?_, by decide +kernel⟩
  · intro i _ t
    simp only [exB]
    split <;> decide
  · intro i hi t
    have : ¬ ((i = 0 ∧ 2 ≤ t) ∨ (i = 1 ∧ 3 ≤ t)) := by
      rintro (⟨rfl, -⟩ | ⟨rfl, -⟩)
      · exact hi rfl
      · exact hi rfl
    simp only [exB]
    rw [if_neg this]

/-- One switcher whose treatment rises from 1 to 2 and then drops to 0 for good. -/
def exCross : Balanced (Fin 2) ℕ ℚ where
  t0 := 1
  T := 5
  Y := fun i t => if i = 0 then t else 0
  F := ![((2 : ℤ) : WithTop ℤ), ⊤]
  cell := fun _ => 0
  S := ![1, 0]
  D := fun i t => if i = 0 ∧ t = 2 then 2 else if i = 0 ∧ 3 ≤ t then 0 else 1
  dsq := fun _ => 1
  hF := by decide +kernel

/-- C83.  In a balanced panel without crossing, the reported normalised effect is the effect divided by the documented
average absolute dose. -/
theorem C83_reported (B : Balanced ι β K) (eps : K) (pl : Bool) (h : ℕ) (hh : 1 ≤ h)
    (hS : ∀ i, B.F i ≠ ⊤ → B.S i ≠ 0) (hne : B.docSwitchers pl h ≠ ∅)
    (hin : ∀ i, B.S i = 1 → ∀ t, B.dsq i ≤ B.D i t) (hout : ∀ i, B.S i ≠ 1 → ∀ t, B.D i t ≤ B.dsq i)
    (hpos : ∃ i ∈ B.docSwitchers pl h, B.dose h i ≠ 0) (e : K) (he : estimate B.frame (B.opt eps) pl h = some e) :
    normalised B.frame (B.opt eps) pl h =
      some (e / ((∑ i ∈ B.docSwitchers pl h, |B.dose h i|) / (B.docSwitchers pl h).card)) := by
  unfold normalised
  rw [he, C83_documented B eps pl h hh hS hne hin hout]
  simp only [Option.map_some, Option.getD_some]
  rw [if_neg]
  have hcard : (0 : K) < ((B.docSwitchers pl h).card : K) := by
    have : 0 < (B.docSwitchers pl h).card := card_pos.2 (nonempty_iff_ne_empty.2 hne)
    exact_mod_cast this
  obtain ⟨i, hi, h0⟩ := hpos
  have : 0 < ∑ i ∈ B.docSwitchers pl h, |B.dose h i| :=
    sum_pos' (fun _ _ => abs_nonneg _) ⟨i, hi, abs_pos.2 h0⟩
  exact (div_pos this hcard).ne'

example : (estimate exB.frame (exB.opt (1 / 10)) false 2).isSome = true ∧ exB.docSwitchers false 2 ≠ ∅ ∧
    (∃ i ∈ exB.docSwitchers false 2, exB.dose 2 i ≠ 0) := by decide +kernel

/-- C83 (violated with `keep_bidirectional_switchers`).  When the treatment crosses its baseline the normaliser is the SIGNED
cumulated change: here it is -1 while the documented one is 1, and at horizon 2 it is 0, in which case the estimate is
returned unnormalised. -/
theorem C83_crossing_violated :
    deltaD exCross.frame (exCross.opt (1 / 10)) false 3 = some (-1) ∧ |exCross.dose 3 0| = 1 ∧
    exCross.docSwitchers false 3 = {0} ∧
    deltaD exCross.frame (exCross.opt (1 / 10)) false 2 = some 0 ∧
    normalised exCross.frame (exCross.opt (1 / 10)) false 2 = estimate exCross.frame (exCross.opt (1 / 10)) false 2 := by
  decide +kernel

/-! ## C86 -/

/-- The documented average total effect over horizons `1..m` for increasing treatments: summed effects over summed treatment
changes. -/
def Balanced.totalEffect (B : Balanced ι β K) (m : ℕ) : K :=
  (∑ l : Fin m, ∑ i ∈ B.docSwitchers false (l.1 + 1), B.DID false (l.1 + 1) i) /
    ∑ l : Fin m, ∑ i ∈ B.docSwitchers false (l.1 + 1), (B.D i (B.Fdoc i - 1 + (l.1 + 1 : ℕ)) - B.dsq i)

/-- The reported one: `_compute_ate` on the horizons' results, `compute_did_multiplegt.py:101, 385-390`. -/
def Balanced.reportedAte (B : Balanced ι β K) (eps : K) (m : ℕ) : Option K :=
  ate (fun l : Fin m => estimate B.frame (B.opt eps) false (l.1 + 1))
    (fun l : Fin m => if usedUnits B.frame (B.opt eps) false (l.1 + 1) = ∅ then 0
      else max (nSwW B.frame (B.opt eps) false (l.1 + 1)) eps)
    (fun l : Fin m => (deltaD B.frame (B.opt eps) false (l.1 + 1)).getD 0)

/-- C86.  When every switcher's treatment rises by the same amount `c > 0` and stays there, and every horizon has switchers,
the reported average effect is the documented one. -/
theorem C86_constant_dose (B : Balanced ι β K) (eps : K) (heps : 0 < eps) (heps1 : eps ≤ 1) (m : ℕ) (hm : 0 < m) (c : K)
    (hc : 0 < c) (hS : ∀ i, B.F i ≠ ⊤ → B.S i = 1) (hS' : ∀ i, B.F i = ⊤ → B.S i = 0)
    (hD : ∀ i, B.F i ≠ ⊤ → ∀ t, B.D i t = if t < B.Fdoc i then B.dsq i else B.dsq i + c)
    (hD' : ∀ i, B.F i = ⊤ → ∀ t, B.D i t = B.dsq i)
    (hne : ∀ l : Fin m, B.docSwitchers false (l.1 + 1) ≠ ∅) :
    B.reportedAte eps m = some (B.totalEffect m) := by
  have hS0 : ∀ i, B.F i ≠ ⊤ → B.S i ≠ 0 := fun i e => by rw [hS i e]; decide
  have hTop : ∀ (l : ℕ), 1 ≤ l → ∀ (i : ι), i ∈ B.docSwitchers false l → B.F i ≠ ⊤ := by
    intro l hl i hi e
    simp only [Balanced.docSwitchers, mem_filter, mem_univ, true_and] at hi
    have h1 : B.Fdoc i = B.last + 1 := by unfold Balanced.Fdoc; rw [e]; rfl
    omega
  have hcard : ∀ l : Fin m, (1 : K) ≤ ((B.docSwitchers false (l.1 + 1)).card : K) := by
    intro l
    have : 0 < (B.docSwitchers false (l.1 + 1)).card := card_pos.2 (nonempty_iff_ne_empty.2 (hne l))
    exact_mod_cast this
  have hest : ∀ l : Fin m, estimate B.frame (B.opt eps) false (l.1 + 1) =
      some ((∑ i ∈ B.docSwitchers false (l.1 + 1), B.DID false (l.1 + 1) i) / (B.docSwitchers false (l.1 + 1)).card) := by
    intro l
    rw [C57_documented B eps heps heps1 false (l.1 + 1) (by omega) hS0, if_neg (hne l)]
  have hN : ∀ l : Fin m, (if usedUnits B.frame (B.opt eps) false (l.1 + 1) = ∅ then 0
      else max (nSwW B.frame (B.opt eps) false (l.1 + 1)) eps) = ((B.docSwitchers false (l.1 + 1)).card : K) := by
    intro l
    have hu : usedUnits B.frame (B.opt eps) false (l.1 + 1) ≠ ∅ := by
      intro e
      have h1 := (C57_missing B.frame (B.opt eps) false (l.1 + 1)).2 ((usedUnits_empty ..).1 e)
      rw [hest l] at h1
      simp at h1
    rw [if_neg hu, nSwW_eq, frame_sum B eps false (l.1 + 1) (by omega) hS0 (fun _ => 1) (fun r => B.frame.w r.1 r.2) (fun r _ => rfl)]
    simp only [sum_const, nsmul_eq_mul, mul_one]
    exact max_eq_left (le_trans heps1 (hcard l))
  have hδ : (deltaD B.frame (B.opt eps) false 1).getD 0 = c := by
    rw [C83_documented B eps false 1 le_rfl hS0 (hne ⟨0, hm⟩) ?_ ?_]
    · have h1 : ∀ i ∈ B.docSwitchers false 1, |B.dose 1 i| = c := by
        intro i hi
        unfold Balanced.dose
        rw [sum_range_one, hD i (hTop 1 le_rfl i hi), if_neg (by simp)]
        simp [abs_of_pos hc]
      rw [sum_congr rfl h1, sum_const, Option.getD_some, nsmul_eq_mul]
      have := hcard ⟨0, hm⟩
      simp only [zero_add] at this
      have h2 : ((B.docSwitchers false 1).card : K) ≠ 0 := by
        intro e; rw [e] at this; exact absurd this (not_le.2 zero_lt_one)
      field_simp
    · intro i hi t
      by_cases e : B.F i = ⊤
      · rw [hD' i e]
      · rw [hD i e]; split
        · exact le_rfl
        · linarith
    · intro i hi t
      by_cases e : B.F i = ⊤
      · rw [hD' i e]
      · exact absurd (hS i e) hi
  unfold Balanced.reportedAte ate
  simp only [hN, hest]
  have hvalid : (univ : Finset (Fin m)).filter (fun l =>
      (some ((∑ i ∈ B.docSwitchers false (l.1 + 1), B.DID false (l.1 + 1) i) /
        ((B.docSwitchers false (l.1 + 1)).card : K))).isSome = true ∧
      (0 : K) < ((B.docSwitchers false (l.1 + 1)).card : K)) = univ := by
    rw [filter_true_of_mem]
    intro l _
    exact ⟨rfl, lt_of_lt_of_le zero_lt_one (hcard l)⟩
  rw [hvalid, if_neg (fun e => by
    have := congrArg (fun s : Finset (Fin m) => (⟨0, hm⟩ : Fin m) ∈ s) e
    simp at this), dif_pos hm]
  simp only [zero_add, hδ]
  rw [if_neg hc.ne']
  congr 1
  unfold Balanced.totalEffect
  have hden : ∑ l : Fin m, ∑ i ∈ B.docSwitchers false (l.1 + 1), (B.D i (B.Fdoc i - 1 + (l.1 + 1 : ℕ)) - B.dsq i) =
      (∑ l : Fin m, ((B.docSwitchers false (l.1 + 1)).card : K)) * c := by
    rw [sum_mul]
    refine sum_congr rfl fun l _ => ?_
    rw [sum_congr rfl (g := fun _ => c), sum_const, nsmul_eq_mul]
    intro i hi
    rw [hD i (hTop _ (by omega) i hi), if_neg (by push_cast; omega)]
    ring
  rw [hden, ← div_div]
  congr 1
  rw [sum_div]
  refine sum_congr rfl fun l _ => ?_
  rw [Option.getD_some]
  have h1 : ((B.docSwitchers false (l.1 + 1)).card : K) ≠ 0 := (lt_of_lt_of_le zero_lt_one (hcard l)).ne'
  have h2 : (∑ l : Fin m, ((B.docSwitchers false (l.1 + 1)).card : K)) ≠ 0 := by
    have : (0 : K) < ∑ l : Fin m, ((B.docSwitchers false (l.1 + 1)).card : K) :=
      sum_pos (fun l _ => lt_of_lt_of_le zero_lt_one (hcard l)) ⟨⟨0, hm⟩, mem_univ _⟩
    exact this.ne'
  field_simp

example : (∀ l : Fin 2, exB.docSwitchers false (l.1 + 1) ≠ ∅) ∧ (∀ i, exB.F i ≠ ⊤ → exB.S i = 1) ∧
    exB.reportedAte (1 / 10) 2 = some (exB.totalEffect 2) := by decide +kernel

/-- One switcher whose treatment is 1 in the first period after the switch and 3 in the next; effects equal the dose. -/
def exRamp : Balanced (Fin 2) ℕ ℚ where
  t0 := 1
  T := 3
  Y := fun i t => if i = 0 ∧ t = 2 then 1 else if i = 0 ∧ t = 3 then 3 else 0
  F := ![((2 : ℤ) : WithTop ℤ), ⊤]
  cell := fun _ => 0
  S := ![1, 0]
  D := fun i t => if i = 0 ∧ t = 2 then 1 else if i = 0 ∧ t = 3 then 3 else 0
  dsq := fun _ => 0
  hF := by decide +kernel

/-- C86 (violated when doses change after the switch).  The outcome moves one for one with the treatment, so the documented
effect per unit of treatment is 1; the reported one divides by the first horizon's dose only and is 2. -/
theorem C86_ramp_violated :
    exRamp.totalEffect 2 = 1 ∧ exRamp.reportedAte (1 / 10) 2 = some 2 := by decide +kernel

/-! ## C87 -/

/-- The frame `cluster_bootstrap` builds when unit `i` is drawn `m i` times (`didinter/bootstrap.py:76-80`,
`gather_bootstrap_indices`): the copies keep the unit's identifier and the rows are sorted by unit and period, so row `p` is a
copy of the original row `p / m i`.  (Copies of a row are identical, so their order does not matter.) -/
def Frame.resample (P : Frame ι β K) (m : ι → ℕ) : Frame ι β K where
  n := fun i => m i * P.n i
  t := fun i p => P.t i ⟨p.1 / m i, Nat.div_lt_of_lt_mul p.2⟩
  y := fun i p => P.y i ⟨p.1 / m i, Nat.div_lt_of_lt_mul p.2⟩
  d := fun i p => P.d i ⟨p.1 / m i, Nat.div_lt_of_lt_mul p.2⟩
  w := fun i p => P.w i ⟨p.1 / m i, Nat.div_lt_of_lt_mul p.2⟩
  F := P.F
  L := P.L
  S := P.S
  cell := P.cell
  dsq := P.dsq

/-- What a block bootstrap of units means: every draw is a unit of its own. -/
def Frame.copies (P : Frame ι β K) (m : ι → ℕ) : Frame ((i : ι) × Fin (m i)) β K where
  n := fun c => P.n c.1
  t := fun c k => P.t c.1 k
  y := fun c k => P.y c.1 k
  d := fun c k => P.d c.1 k
  w := fun c k => P.w c.1 k
  F := fun c => P.F c.1
  L := fun c => P.L c.1
  S := fun c => P.S c.1
  cell := fun c => P.cell c.1
  dsq := fun c => P.dsq c.1

/-- C87.  In a bootstrap sample the value `h` rows above row `p` of a unit drawn `m` times is its outcome in original row
`(p - h) / m`, not in row `p / m - h`. -/
theorem C87_lag (P : Frame ι β K) (m : ι → ℕ) (i : ι) (p : Fin (m i * P.n i)) (h : ℕ) (hp : h ≤ p.1) :
    (P.resample m).shift ⟨i, p⟩ h =
      P.y i ⟨(p.1 - h) / m i, Nat.div_lt_of_lt_mul (lt_of_le_of_lt (Nat.sub_le _ _) p.2)⟩ := by
  unfold Frame.shift
  rw [dif_pos hp]
  rfl

/-- C87 (violated).  For a unit drawn at least twice, the one-period outcome change on every row but the first copy of each
period is 0, whatever the data. -/
theorem C87_second_copy_violated (P : Frame ι β K) (m : ι → ℕ) (i : ι) (p : Fin (m i * P.n i)) (x : K)
    (hp : p.1 % m i ≠ 0) (hy : P.y i ⟨p.1 / m i, Nat.div_lt_of_lt_mul p.2⟩ = some x) :
    (P.resample m).diff false 1 ⟨i, p⟩ = some 0 := by
  have h1 : 1 ≤ p.1 := by
    rcases Nat.eq_zero_or_pos p.1 with e | e
    · rw [e, Nat.zero_mod] at hp; exact absurd rfl hp
    · exact e
  have e : (p.1 - 1) / m i = p.1 / m i := by
    have hm : 0 < m i := by
      rcases Nat.eq_zero_or_pos (m i) with e | e
      · have h4 : m i * P.n i = 0 := by rw [e, zero_mul]
        have := p.2; omega
      · exact e
    have h2 := Nat.div_add_mod p.1 (m i)
    have h3 := Nat.mod_lt p.1 hm
    rw [Nat.div_eq_of_lt_le]
    · have : p.1 / m i * m i = m i * (p.1 / m i) := mul_comm _ _
      omega
    · have : (p.1 / m i + 1) * m i = m i * (p.1 / m i) + m i := by ring
      omega
  unfold Frame.diff
  simp only [Bool.false_eq_true, if_false]
  rw [C87_lag P m i p 1 h1]
  have e2 : P.y i ⟨(p.1 - 1) / m i, Nat.div_lt_of_lt_mul (lt_of_le_of_lt (Nat.sub_le _ _) p.2)⟩ = some x := by
    rw [← hy]
    congr 1
    exact Fin.ext e
  rw [e2, show (P.resample m).y i p = some x from hy]
  simp [sub?]

example : (exLate.frame.resample ![2, 1]).diff false 1 ⟨0, (3 : Fin 8)⟩ = some 0 ∧
    exLate.frame.diff false 1 ⟨0, (1 : Fin 4)⟩ = some 1 := by decide +kernel

/-- Two identical switchers and two identical never-switchers. -/
def exTwins : Balanced (Fin 4) ℕ ℚ where
  t0 := 1
  T := 2
  Y := fun i t => if (i = 0 ∨ i = 1) ∧ t = 2 then 8 else 0
  F := ![((2 : ℤ) : WithTop ℤ), ((2 : ℤ) : WithTop ℤ), ⊤, ⊤]
  cell := fun _ => 0
  S := ![1, 1, 0, 0]
  D := fun i t => if (i = 0 ∨ i = 1) ∧ t = 2 then 1 else 0
  dsq := fun _ => 0
  hF := by decide +kernel

/-- C87 (violated).  Drawing units 0 and 2 twice (and 1 and 3 not at all) gives a sample identical to the original panel up
to labels, so a bootstrap replicate must reproduce the estimate 8 - and does when the draws are separate units; the code's
replicate gives 4. -/
theorem C87_replicate_violated :
    estimate exTwins.frame (exTwins.opt (1 / 10)) false 1 = some 8 ∧
    estimate (exTwins.frame.copies ![2, 0, 2, 0]) (exTwins.opt (1 / 10)) false 1 = some 8 ∧
    estimate (exTwins.frame.resample ![2, 0, 2, 0]) (exTwins.opt (1 / 10)) false 1 = some 4 := by decide +kernel

/-! ## C88 -/

/-- `np.cumsum`. -/
def cumsum : K → List K → List K
  | _, [] => []
  | s, x :: xs => (s + x) :: cumsum (s + x) xs

/-- The estimates after `trends_lin`: cumulated only if every horizon has an estimate (`len(influence_funcs) == n_horizons`),
`compute_did_multiplegt.py:492-495, 676-679`. -/
def applyTrends (est : List (Option K)) : List (Option K) :=
  if est.all Option.isSome then (cumsum 0 (est.map fun e => e.getD 0)).map some else est

theorem cumsum_get : ∀ (xs : List K) (s : K) (l : ℕ) (hl : l < xs.length),
    (cumsum s xs)[l]? = some (s + ∑ j : Fin (l + 1), xs[j.1]'(by omega))
  | [], _, l, hl => by simp at hl
  | x :: xs, s, 0, _ => by simp [cumsum]
  | x :: xs, s, l + 1, hl => by
    have := cumsum_get xs (s + x) l (by simpa using hl)
    rw [cumsum, List.getElem?_cons_succ, this, Fin.sum_univ_succ (n := l + 1)]
    congr 1
    simp only [Fin.val_zero, List.getElem_cons_zero, Fin.val_succ, List.getElem_cons_succ]
    ring

/-- C88.  If every horizon has an estimate, the reported effect at horizon `l+1` is the sum of the first-difference effects
at horizons `1..l+1`. -/
theorem C88_cumulates (est : List K) (l : ℕ) (hl : l < est.length) :
    (applyTrends (est.map some))[l]? = some (some (∑ j : Fin (l + 1), est[j.1]'(by omega))) := by
  unfold applyTrends
  rw [if_pos (by simp)]
  rw [List.getElem?_map, List.map_map]
  have : est.map ((fun e : Option K => e.getD 0) ∘ some) = est := by
    rw [show ((fun e : Option K => e.getD 0) ∘ some) = id from rfl, List.map_id]
  rw [this, cumsum_get est 0 l hl]
  simp

/-- C88.  The cumulated first-difference changes of a unit are its outcome change net of its own linear trend between `F-2`
and `F-1`: `sum_{h=1..l} (dY_{F-1+h} - dY_{F-1}) = Y_{F-1+l} - Y_{F-1} - l (Y_{F-1} - Y_{F-2})`. -/
theorem C88_detrends (Y : ℤ → K) (f : ℤ) (l : ℕ) :
    ∑ h ∈ range l, ((Y (f - 1 + (h + 1)) - Y (f - 1 + (h + 1) - 1)) - (Y (f - 1) - Y (f - 1 - 1))) =
      Y (f - 1 + l) - Y (f - 1) - l * (Y (f - 1) - Y (f - 2)) := by
  induction l with
  | zero => simp
  | succ l ih =>
    rw [sum_range_succ, ih]
    have e1 : f - 1 + ((l : ℤ) + 1) - 1 = f - 1 + l := by ring
    have e2 : f - 1 - 1 = f - 2 := by ring
    rw [e1, e2]
    push_cast
    ring

/-- C88 (violated).  If some horizon has no estimate, NO horizon is cumulated: the reported effects are the raw
first-difference ones. -/
theorem C88_missing_horizon_violated (est : List (Option K)) (h : none ∈ est) : applyTrends est = est := by
  unfold applyTrends
  rw [if_neg]
  intro e
  rw [List.all_eq_true] at e
  simpa using e none h

example : applyTrends [some (1 : ℚ), some 2, some 3] = [some 1, some 3, some 6] ∧
    applyTrends [some (1 : ℚ), some 2, none] = [some 1, some 2, none] := by decide +kernel

end Verif.Inter
