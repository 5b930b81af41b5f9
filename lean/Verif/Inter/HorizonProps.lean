import Verif.Inter.HorizonLemmas
import Mathlib.Algebra.Order.Field.Rat
import Mathlib.Data.Fin.VecNotation
import Mathlib.Tactic.NormNum

/-! # Horizon estimator: C57, C58 -/

set_option linter.unusedSectionVars false
set_option linter.unusedSimpArgs false

namespace Verif.Inter

open Finset

variable {ι β K : Type*} [Fintype ι] [DecidableEq ι] [DecidableEq β] [Field K] [LinearOrder K] [IsStrictOrderedRing K]

/-- C57.  In every frame (missing outcomes, weights, any options) the estimate at a horizon is the weighted mean over the
switcher rows of their outcome change minus the weighted mean change of their controls. -/
theorem C57_weighted (P : Frame ι β K) (o : Opt K) (pl : Bool) (h : ℕ) (heps : 0 < o.eps)
    (hN : o.eps ≤ ∑ r ∈ switcherRows P o pl h, P.w r.1 r.2) :
    estimate P o pl h = some ((∑ r ∈ switcherRows P o pl h, P.w r.1 r.2 * rowDid P o pl h r) /
      ∑ r ∈ switcherRows P o pl h, P.w r.1 r.2) := by
  have hpos : 0 < ∑ r ∈ switcherRows P o pl h, P.w r.1 r.2 := lt_of_lt_of_le heps hN
  have hne : switcherRows P o pl h ≠ ∅ := by
    intro e; rw [e, sum_empty] at hpos; exact lt_irrefl _ hpos
  obtain ⟨r, hr⟩ := nonempty_iff_ne_empty.2 hne
  have hc : (Fintype.card ι : K) ≠ 0 := by
    have : 0 < Fintype.card ι := Fintype.card_pos_iff.2 ⟨r.1⟩
    exact_mod_cast this.ne'
  unfold estimate
  rw [if_neg (fun e => hne ((usedUnits_empty P o pl h).1 e)), unitInf_sum, sum_infTemp, nSwW_eq, max_eq_left hN]
  congr 1
  field_simp

/-- C57.  No estimate is reported exactly when no unit is `h` periods past its switch with an observed change and
controls. -/
theorem C57_missing (P : Frame ι β K) (o : Opt K) (pl : Bool) (h : ℕ) :
    estimate P o pl h = none ↔ switcherRows P o pl h = ∅ := by
  unfold estimate
  by_cases e : usedUnits P o pl h = ∅
  · rw [if_pos e]; simpa using (usedUnits_empty P o pl h).1 e
  · rw [if_neg e]
    simpa using fun e' => e ((usedUnits_empty P o pl h).2 e')

section balanced
variable (B : Balanced ι β K)

theorem fdoc_gt {j : ι} {m : ℤ} (hm : m ≤ B.last) : m < B.Fdoc j ↔ (m : WithTop ℤ) < B.F j := by
  unfold Balanced.Fdoc
  induction B.F j using WithTop.recTopCoe with
  | top => simp; omega
  | coe a => simp

theorem frame_shift (i : ι) (k : Fin B.T) (h : ℕ) :
    B.frame.shift ⟨i, k⟩ h = if h ≤ k.1 then some (B.Y i (B.t0 + k.1 - h)) else none := by
  unfold Frame.shift
  by_cases e : h ≤ k.1
  · rw [dif_pos e, if_pos e]
    simp only [Balanced.frame]
    congr 2
    push_cast [e]
    ring
  · rw [dif_neg e, if_neg e]

theorem frame_diff (i : ι) (k : Fin B.T) (pl : Bool) (h : ℕ) :
    B.frame.diff pl h ⟨i, k⟩ = if (if pl then 2 * h else h) ≤ k.1 then
      some (B.Y i (if pl then B.t0 + k.1 - 2 * h else B.t0 + k.1) - B.Y i (B.t0 + k.1 - h)) else none := by
  unfold Frame.diff
  rw [frame_shift, frame_shift]
  cases pl
  · simp only [Bool.false_eq_true, if_false]
    by_cases e : h ≤ k.1
    · rw [if_pos e, if_pos e]; rfl
    · rw [if_neg e, if_neg e]; rfl
  · simp only [if_true]
    by_cases e : 2 * h ≤ k.1
    · rw [if_pos e, if_pos e, if_pos (by omega)]
      simp only [sub?]
      congr 3
    · rw [if_neg e, if_neg e]
      cases (if h ≤ k.1 then some (B.Y i (B.t0 + k.1 - h)) else none) <;> rfl

theorem frame_controls (eps : K) (pl : Bool) (h : ℕ) (i : ι) (k : Fin B.T)
    (hk : B.t0 + k.1 = B.Fdoc i - 1 + h) (hd : (if pl then 2 * h else h) ≤ k.1) :
    controls B.frame (B.opt eps) pl h ⟨i, k⟩ =
      (B.docControls h i).map ⟨fun j => (⟨j, k⟩ : B.frame.Row), fun a b e => by cases e; rfl⟩ := by
  ext ⟨j, k'⟩
  have hkT : B.t0 + k.1 ≤ B.last := by
    have := k.2
    unfold Balanced.last; omega
  simp only [controls, mem_filter, mem_univ, true_and, mem_map, Function.Embedding.coeFn_mk, Balanced.docControls]
  constructor
  · rintro ⟨h1, h2, h3, -, -⟩
    have e : k' = k := by
      apply Fin.ext
      simp only [Frame.time, Balanced.frame] at h1
      omega
    subst e
    refine ⟨j, ⟨h2, ?_⟩, rfl⟩
    rw [← hk, fdoc_gt B hkT]
    exact h3
  · rintro ⟨j', ⟨h2, h3⟩, e⟩
    cases e
    refine ⟨rfl, h2, ?_, ?_, ?_⟩
    · rw [← hk, fdoc_gt B hkT] at h3
      exact h3
    · intro e; simp [Balanced.opt] at e
    · rw [frame_diff, if_pos hd]; simp

theorem frame_F_of {i : ι} {m : ℤ} (hm : m ≤ B.last) : B.F i = (m : WithTop ℤ) ↔ B.Fdoc i = m := by
  unfold Balanced.Fdoc
  induction B.F i using WithTop.recTopCoe with
  | top => simp; omega
  | coe a => simp

theorem fdoc_lower (i : ι) (hT : B.t0 + 1 ≤ B.last + 1) : B.t0 + 1 ≤ B.Fdoc i := by
  have := B.hF i
  unfold Balanced.Fdoc
  revert this
  induction B.F i using WithTop.recTopCoe with
  | top => intro _; simpa using hT
  | coe a => intro h; exact_mod_cast h

theorem frame_switcher (eps : K) (pl : Bool) (h : ℕ) (hh : 1 ≤ h) (hS : ∀ i, B.F i ≠ ⊤ → B.S i ≠ 0) (i : ι)
    (k : Fin B.T) :
    (⟨i, k⟩ : B.frame.Row) ∈ switcherRows B.frame (B.opt eps) pl h ↔
      i ∈ B.docSwitchers pl h ∧ B.t0 + k.1 = B.Fdoc i - 1 + h := by
  have hkT : B.t0 + k.1 ≤ B.last := by
    have := k.2
    unfold Balanced.last; omega
  have hlow := fdoc_lower B i (by unfold Balanced.last; have := k.2; omega)
  have key : ∀ (hk : B.t0 + k.1 = B.Fdoc i - 1 + h) (hd : (if pl then 2 * h else h) ≤ k.1),
      (0 < ∑ s ∈ controls B.frame (B.opt eps) pl h ⟨i, k⟩, B.frame.w s.1 s.2) ↔ (B.docControls h i).Nonempty := by
    intro hk hd
    rw [frame_controls B eps pl h i k hk hd, sum_map]
    have : ∑ x ∈ B.docControls h i, B.frame.w x k = ((B.docControls h i).card : K) := by
      simp [Balanced.frame]
    rw [show (∑ x ∈ B.docControls h i, B.frame.w (((⟨fun j => (⟨j, k⟩ : B.frame.Row), fun a b e => by cases e; rfl⟩ :
      ι ↪ B.frame.Row) x)).fst (((⟨fun j => (⟨j, k⟩ : B.frame.Row), fun a b e => by cases e; rfl⟩ :
      ι ↪ B.frame.Row) x)).snd) = ∑ x ∈ B.docControls h i, B.frame.w x k from rfl, this]
    rw [Nat.cast_pos, card_pos]
  have hdoc : i ∈ B.docSwitchers pl h ↔ B.Fdoc i - 1 + h ≤ B.last ∧ (B.docControls h i).Nonempty ∧
    (pl = true → B.t0 ≤ B.Fdoc i - 1 - h) := by simp [Balanced.docSwitchers]
  have hsw : (⟨i, k⟩ : B.frame.Row) ∈ switcherRows B.frame (B.opt eps) pl h ↔
      B.F i = ((B.t0 + k.1 - h + 1 : ℤ) : WithTop ℤ) ∧ (h : ℤ) ≤ B.last - B.Fdoc i + 1 ∧ B.S i ≠ 0 ∧
      B.frame.diff pl h ⟨i, k⟩ ≠ none ∧ 0 < ∑ s ∈ controls B.frame (B.opt eps) pl h ⟨i, k⟩, B.frame.w s.1 s.2 := by
    unfold switcherRows
    simp only [mem_filter, mem_univ, true_and, sameOk, Balanced.opt, Bool.false_eq_true, if_false, Admitted]
    rfl
  rw [hsw, hdoc, frame_diff]
  have hm : B.t0 + k.1 - h + 1 ≤ B.last := by omega
  rw [frame_F_of B hm]
  constructor
  · rintro ⟨h1, h2, h3, h4, h5⟩
    have hk : B.t0 + k.1 = B.Fdoc i - 1 + h := by omega
    have hd : (if pl then 2 * h else h) ≤ k.1 := by
      by_contra e
      rw [if_neg e] at h4
      exact h4 rfl
    refine ⟨⟨by omega, (key hk hd).1 h5, fun e => ?_⟩, hk⟩
    rw [if_pos e] at hd
    omega
  · rintro ⟨⟨h1, h2, h3⟩, hk⟩
    have hd : (if pl then 2 * h else h) ≤ k.1 := by
      cases pl
      · simp only [Bool.false_eq_true, if_false]; omega
      · simp only [if_true]
        have := h3 rfl
        omega
    refine ⟨by omega, by omega, hS i ?_, ?_, (key hk hd).2 h2⟩
    · have : B.F i = ((B.t0 + k.1 - h + 1 : ℤ) : WithTop ℤ) := (frame_F_of B hm).2 (by omega)
      rw [this]; exact WithTop.coe_ne_top
    · rw [if_pos hd]; simp

theorem frame_rowDid (eps : K) (pl : Bool) (h : ℕ) (i : ι) (k : Fin B.T)
    (hk : B.t0 + k.1 = B.Fdoc i - 1 + h) (hd : (if pl then 2 * h else h) ≤ k.1) :
    rowDid B.frame (B.opt eps) pl h ⟨i, k⟩ = B.DID pl h i := by
  have hchg : ∀ j, (B.frame.diff pl h ⟨j, k⟩).getD 0 = B.change pl h i j := by
    intro j
    rw [frame_diff, if_pos hd]
    unfold Balanced.change
    rw [Option.getD_some]
    have e1 : B.t0 + (k.1 : ℤ) - h = B.Fdoc i - 1 := by omega
    rw [e1]
    congr 2
    cases pl
    · simpa using hk
    · simp only [if_true]; omega
  unfold rowDid Balanced.DID
  rw [frame_controls B eps pl h i k hk hd, sum_map, sum_map, hchg]
  congr 2
  · refine sum_congr rfl fun j _ => ?_
    show (1 : K) * (B.frame.diff pl h ⟨j, k⟩).getD 0 = _
    rw [hchg j, one_mul]
  · simp [Balanced.frame]

theorem frame_row_exists (eps : K) (pl : Bool) (h : ℕ) (hh : 1 ≤ h)
    (hS : ∀ i, B.F i ≠ ⊤ → B.S i ≠ 0) :
    ∀ i ∈ B.docSwitchers pl h, ∃ k : Fin B.T, (⟨i, k⟩ : B.frame.Row) ∈ switcherRows B.frame (B.opt eps) pl h := by
  intro i hi
  have hi' := hi
  simp only [Balanced.docSwitchers, mem_filter, mem_univ, true_and] at hi'
  obtain ⟨h1, ⟨j, hj⟩, h3⟩ := hi'
  have hT : 0 ≤ B.last - B.t0 := by
    by_contra hneg
    have hl : B.last < B.t0 := by omega
    have hT0 : (B.T : ℤ) = 0 := by unfold Balanced.last at hl; omega
    have hFt : ∀ x, B.F x = ⊤ ∨ ∃ a : ℤ, B.F x = (a : WithTop ℤ) ∧ B.t0 + 1 ≤ a := by
      intro x
      have := B.hF x
      revert this
      induction B.F x using WithTop.recTopCoe with
      | top => intro _; exact Or.inl rfl
      | coe a => intro h; exact Or.inr ⟨a, rfl, by exact_mod_cast h⟩
    have hfi : B.Fdoc i = B.last + 1 ∨ B.t0 + 1 ≤ B.Fdoc i := by
      unfold Balanced.Fdoc
      rcases hFt i with e | ⟨a, e, ha⟩
      · left; rw [e]; rfl
      · right; rw [e]; simpa using ha
    rcases hfi with e | e <;> omega
  have hlow := fdoc_lower B i (by omega)
  have hb : (B.Fdoc i - 1 + h - B.t0).toNat < B.T := by
    have : B.last = B.t0 + B.T - 1 := rfl
    omega
  refine ⟨⟨_, hb⟩, (frame_switcher B eps pl h hh hS i _).2 ⟨hi, ?_⟩⟩
  simp only
  omega

theorem frame_row_late (eps : K) (pl : Bool) (h : ℕ) :
    ∀ i (k : Fin B.T), (⟨i, k⟩ : B.frame.Row) ∈ switcherRows B.frame (B.opt eps) pl h →
    (if pl then 2 * h else h) ≤ k.1 := by
  intro i k hr
  have h4 : B.frame.diff pl h ⟨i, k⟩ ≠ none := ((mem_switcherRows ..).1 hr).2
  rw [frame_diff] at h4
  by_contra e
  rw [if_neg e] at h4
  exact h4 rfl

theorem frame_sum (eps : K) (pl : Bool) (h : ℕ) (hh : 1 ≤ h)
    (hS : ∀ i, B.F i ≠ ⊤ → B.S i ≠ 0) :
    ∀ (f : ι → K) (g : B.frame.Row → K), (∀ r ∈ switcherRows B.frame (B.opt eps) pl h, g r = f r.1) →
    ∑ r ∈ switcherRows B.frame (B.opt eps) pl h, g r = ∑ i ∈ B.docSwitchers pl h, f i := by
  intro f g hfg
  refine sum_bij (fun r _ => r.1) ?_ ?_ ?_ hfg
  · rintro ⟨i, k⟩ hr; exact ((frame_switcher B eps pl h hh hS i k).1 hr).1
  · rintro ⟨i, k⟩ hr ⟨j, k'⟩ hr' e
    simp only at e
    subst e
    have e1 := ((frame_switcher B eps pl h hh hS i k).1 hr).2
    have e2 := ((frame_switcher B eps pl h hh hS i k').1 hr').2
    have : k = k' := by apply Fin.ext; omega
    rw [this]
  · intro i hi
    obtain ⟨k, hk⟩ := frame_row_exists B eps pl h hh hS i hi
    exact ⟨⟨i, k⟩, hk, rfl⟩

/-- C57.  In a balanced panel over consecutive periods with unit weights and default options, the effect (placebo) at every
horizon is the mean of the documented `DID_{g,l}` (`DID^pl_{g,l}`) over the units that have one, and no estimate is reported
when there is none.  (The documented estimator also multiplies by the direction, see C58.) -/
theorem C57_documented (eps : K) (heps : 0 < eps) (heps1 : eps ≤ 1) (pl : Bool) (h : ℕ) (hh : 1 ≤ h)
    (hS : ∀ i, B.F i ≠ ⊤ → B.S i ≠ 0) :
    estimate B.frame (B.opt eps) pl h =
      if B.docSwitchers pl h = ∅ then none
      else some ((∑ i ∈ B.docSwitchers pl h, B.DID pl h i) / (B.docSwitchers pl h).card) := by
  have hd := frame_row_late B eps pl h
  have hsum := frame_sum B eps pl h hh hS
  by_cases he : B.docSwitchers pl h = ∅
  · rw [if_pos he, C57_missing, eq_empty_iff_forall_notMem]
    rintro ⟨i, k⟩ hr
    have := ((frame_switcher B eps pl h hh hS i k).1 hr).1
    rw [he] at this
    simp at this
  · rw [if_neg he]
    have hW : ∑ r ∈ switcherRows B.frame (B.opt eps) pl h, B.frame.w r.1 r.2 = ((B.docSwitchers pl h).card : K) := by
      rw [hsum (fun _ => 1) (fun r => B.frame.w r.1 r.2) (fun r _ => rfl)]
      simp
    have hcard : (1 : K) ≤ ((B.docSwitchers pl h).card : K) := by
      have : 0 < (B.docSwitchers pl h).card := card_pos.2 (nonempty_iff_ne_empty.2 he)
      exact_mod_cast this
    rw [C57_weighted _ _ _ _ (by exact heps) (by rw [hW]; exact le_trans heps1 hcard), hW]
    congr 2
    refine hsum (fun i => B.DID pl h i) _ ?_
    rintro ⟨i, k⟩ hr
    rw [frame_rowDid B eps pl h i k ((frame_switcher B eps pl h hh hS i k).1 hr).2 (hd i k hr)]
    simp [Balanced.frame]

/-- The documented estimator, with the direction of each switch. -/
def Balanced.signedDID (pl : Bool) (l : ℕ) : K :=
  (∑ i ∈ B.docSwitchers pl l, (B.S i : K) * B.DID pl l i) / (B.docSwitchers pl l).card

/-- C58.  The reported estimate and the documented one differ by twice the contribution of the units whose treatment
decreases. -/
theorem C58_difference (eps : K) (heps : 0 < eps) (heps1 : eps ≤ 1) (pl : Bool) (h : ℕ) (hh : 1 ≤ h)
    (hS : ∀ i, B.F i ≠ ⊤ → B.S i = 1 ∨ B.S i = -1) (hne : B.docSwitchers pl h ≠ ∅) :
    ∃ e, estimate B.frame (B.opt eps) pl h = some e ∧
      e = B.signedDID pl h +
        2 * (∑ i ∈ (B.docSwitchers pl h).filter (fun i => B.S i = -1), B.DID pl h i) / (B.docSwitchers pl h).card := by
  have hS' : ∀ i, B.F i ≠ ⊤ → B.S i ≠ 0 := by
    intro i hi; rcases hS i hi with e | e <;> rw [e] <;> decide
  rw [C57_documented B eps heps heps1 pl h hh hS', if_neg hne]
  refine ⟨_, rfl, ?_⟩
  unfold Balanced.signedDID
  rw [← add_div]
  congr 1
  rw [sum_filter, mul_sum, ← sum_add_distrib]
  refine sum_congr rfl fun i hi => ?_
  have hFi : B.F i ≠ ⊤ := by
    intro e
    simp only [Balanced.docSwitchers, mem_filter, mem_univ, true_and] at hi
    have : B.Fdoc i = B.last + 1 := by unfold Balanced.Fdoc; rw [e]; rfl
    omega
  rcases hS i hFi with e | e
  · rw [e, if_neg (by decide)]; simp
  · rw [e, if_pos rfl]; push_cast; ring

/-- C58.  When all switchers increase their treatment the reported estimate is the documented one. -/
theorem C58_increases (eps : K) (heps : 0 < eps) (heps1 : eps ≤ 1) (pl : Bool) (h : ℕ) (hh : 1 ≤ h)
    (hS : ∀ i, B.F i ≠ ⊤ → B.S i = 1) (hne : B.docSwitchers pl h ≠ ∅) :
    estimate B.frame (B.opt eps) pl h = some (B.signedDID pl h) := by
  obtain ⟨e, he, hv⟩ := C58_difference B eps heps heps1 pl h hh (fun i hi => Or.inl (hS i hi)) hne
  rw [he, hv]
  have : (B.docSwitchers pl h).filter (fun i => B.S i = -1) = ∅ := by
    rw [filter_eq_empty_iff]
    intro i hi
    have hFi : B.F i ≠ ⊤ := by
      intro e
      simp only [Balanced.docSwitchers, mem_filter, mem_univ, true_and] at hi
      have : B.Fdoc i = B.last + 1 := by unfold Balanced.Fdoc; rw [e]; rfl
      omega
    rw [hS i hFi]; decide
  rw [this]; simp

/-- C58 (violated).  When all switchers decrease their treatment the reported estimate is MINUS the documented one. -/
theorem C58_decreases_violated (eps : K) (heps : 0 < eps) (heps1 : eps ≤ 1) (pl : Bool) (h : ℕ) (hh : 1 ≤ h)
    (hS : ∀ i, B.F i ≠ ⊤ → B.S i = -1) (hne : B.docSwitchers pl h ≠ ∅) :
    estimate B.frame (B.opt eps) pl h = some (-B.signedDID pl h) := by
  obtain ⟨e, he, hv⟩ := C58_difference B eps heps heps1 pl h hh (fun i hi => Or.inr (hS i hi)) hne
  rw [he, hv]
  have hSi : ∀ i ∈ B.docSwitchers pl h, B.S i = -1 := by
    intro i hi
    apply hS
    intro e
    simp only [Balanced.docSwitchers, mem_filter, mem_univ, true_and] at hi
    have : B.Fdoc i = B.last + 1 := by unfold Balanced.Fdoc; rw [e]; rfl
    omega
  have hfil : (B.docSwitchers pl h).filter (fun i => B.S i = -1) = B.docSwitchers pl h := filter_true_of_mem hSi
  rw [hfil]
  have hs : B.signedDID pl h = -(∑ i ∈ B.docSwitchers pl h, B.DID pl h i) / (B.docSwitchers pl h).card := by
    unfold Balanced.signedDID
    rw [← sum_neg_distrib]
    congr 1
    refine sum_congr rfl fun i hi => ?_
    rw [hSi i hi]; push_cast; ring
  rw [hs]
  congr 1
  ring

end balanced

end Verif.Inter
