import Verif.DR.EntryRC

set_option linter.unusedSectionVars false
set_option linter.unusedSimpArgs false

/-!
# Which doubly robust estimator `drdid` runs on repeated cross-sections: C220
-/

namespace Verif.DR.Entry

open Verif.Panel Verif.Valid Verif.DR

section Arrays
variable {α K : Type*} [Fintype α] [Field K] [LinearOrder K] [IsStrictOrderedRing K]

/-- The locally efficient estimator (3.4) of Sant'Anna and Zhao: the regression-predicted double difference averaged over
the treated of both periods, plus the mean residuals of the treated around their own regressions, minus the mean residuals
of the comparison group around theirs, the latter weighted by the odds of treatment (trimmed observations have weight 0). -/
def eff34 (level : K) (w : α → K) (d post : α → Bool) (ps : α → K) (mC mT : Bool → α → K) (y : α → K) : K :=
  let odds := fun i => if ps i < level then w i * (ps i / (1 - ps i)) else 0
  wavg w (fun i => d i = true) (fun i => (mT true i - mT false i) - (mC true i - mC false i)) +
    (wavg w (fun i => d i = true ∧ post i = true) (fun i => y i - mT true i) -
      wavg w (fun i => d i = true ∧ post i = false) (fun i => y i - mT false i)) -
    (wavg odds (fun i => d i = false ∧ post i = true) (fun i => y i - mC true i) -
      wavg odds (fun i => d i = false ∧ post i = false) (fun i => y i - mC false i))

/-- The estimator (3.3), not locally efficient: treated and odds-weighted comparison residuals around the comparison
regressions only. -/
def eff33 (level : K) (w : α → K) (d post : α → Bool) (ps : α → K) (mC : Bool → α → K) (y : α → K) : K :=
  let odds := fun i => if ps i < level then w i * (ps i / (1 - ps i)) else 0
  (wavg w (fun i => d i = true ∧ post i = true) (fun i => y i - mC true i) -
      wavg w (fun i => d i = true ∧ post i = false) (fun i => y i - mC false i)) -
    (wavg odds (fun i => d i = false ∧ post i = true) (fun i => y i - mC true i) -
      wavg odds (fun i => d i = false ∧ post i = false) (fun i => y i - mC false i))

lemma wContRC_trim (level : K) (d post : α → Bool) (ps w : α → K) (b : Bool) :
    wContRC d (trim level d ps) ps w (perK post b) =
      fun i => if d i = false ∧ post i = b then (if ps i < level then w i * (ps i / (1 - ps i)) else 0) else 0 := by
  funext i
  unfold wContRC
  rw [perK_eq]
  cases h : d i
  · by_cases hl : ps i < level
    · have h1 : trim level d ps i = true := by simp [trim, h, hl]
      rw [ind_true h1, ind_false h]
      by_cases hb : post i = b <;> simp [hb, hl]
      ring
    · have h1 : trim level d ps i = false := by simp [trim, h, hl]
      rw [ind_false (b := trim level d ps) h1]
      by_cases hb : post i = b <;> simp [hb, hl]
  · rw [ind_true (b := d) h]; simp

lemma wavg_sub (w : α → K) (S : α → Prop) [DecidablePred S] (u v : α → K) :
    wavg w S (fun i => u i - v i) = wavg w S u - wavg w S v := by
  unfold wavg
  simp only [mul_sub, Finset.sum_sub_distrib, sub_div]

lemma wavg_congr_on (w : α → K) (S : α → Prop) [DecidablePred S] {u v : α → K} (h : ∀ i, S i → u i = v i) :
    wavg w S u = wavg w S v := by
  unfold wavg
  congr 1
  apply Finset.sum_congr rfl
  intro i hi
  rw [Finset.mem_filter] at hi
  rw [h i hi.2]

lemma trad_eq_33 [Nonempty α] (level : K) (w : α → K) (d post : α → Bool) (ps : α → K) (mC : Bool → α → K) (y : α → K) :
    tradRC d (trim level d ps) post ps (mC false) (mC true) y w = eff33 level w d post ps mC y := by
  unfold tradRC eff33
  simp only [hmean_eq_wmean, postK_perK, preK_perK, wTreatRC_trim, wContRC_trim, wmean_ite]
  have hr : ∀ (v : α → K) (a b : Bool), wavg v (fun i => d i = a ∧ post i = b)
      (fun i => y i - (perK post true i * mC true i + (1 - perK post true i) * mC false i)) =
      wavg v (fun i => d i = a ∧ post i = b) (fun i => y i - mC b i) := by
    intro v a b
    apply wavg_congr_on
    intro i hi
    simp only [perK_eq, hi.2]
    cases b <;> simp
  simp only [hr]

lemma dr_eq_34 [Nonempty α] (level : K) (w : α → K) (d post : α → Bool) (ps : α → K) (mC mT : Bool → α → K) (y : α → K) :
    drRC d (trim level d ps) post ps (mC false) (mC true) (mT false) (mT true) y w =
      eff34 level w d post ps mC mT y := by
  unfold drRC
  rw [trad_eq_33]
  have e0 : (fun i => ind (trim level d ps) i * w i * ind d i) = wTreat d (trim level d ps) w := rfl
  have e1 : (fun i => ind (trim level d ps) i * w i * ind d i * postK post i) =
      wTreatRC d (trim level d ps) w (perK post true) := rfl
  have e2 : (fun i => ind (trim level d ps) i * w i * ind d i * (1 - postK post i)) =
      wTreatRC d (trim level d ps) w (perK post false) := rfl
  simp only [hmean_eq_wmean, e0, e1, e2, wTreat_trim, wTreatRC_trim, wmean_ite, wmean_group]
  unfold eff33 eff34
  simp only [wavg_sub]
  ring

end Arrays

variable {ι κ K : Type*} [LinearOrder ι] [Fintype κ] [Field K] [LinearOrder K] [IsStrictOrderedRing K]

/-- **C220.** On repeated cross-sections `drdid` with `est_method="trad"` returns the locally efficient estimator (3.4) with
the (clipped) logit scores and the four within-cell regressions, and with `est_method="imp_local"` the same formula with the
tilted scores and odds-weighted comparison regressions; `"trad_local"` returns (3.3). All are computed on the rows without
nulls. -/
theorem C220_formulas (f : Fits κ K) (o : Opts K) {df : List (Row ι ℤ (Obs κ K))} {t0 t1 : ℤ} (h : RCFrame df t0 t1)
    (ho : CommonOptions o) (hp : o.panel = false) (hl : 0 < o.level ∧ o.level < 1) :
    let w := normalize (aW df)
    let d := aD df
    let post := aP df t1
    let reg := fun (v : Fin (prepRC df).length → K) a b => fitted (aX df) (f.ols _ v (cellSel d post (!b) a) (aX df) (aY df))
    let ml := clip lo hi (f.logit _ w d (aX df))
    let tilt := clip lo hi (f.ipt _ w d (aX df))
    let tw := fun i => w i * (tilt i / (1 - tilt i))
    (o.est = "trad" → drdidCall f o df =
      .ok (some (eff34 o.level w d post ml (reg w false) (reg w true) (aY df)))) ∧
    (o.est = "imp_local" → drdidCall f o df =
      .ok (some (eff34 o.level w d post tilt (reg tw false) (reg w true) (aY df)))) ∧
    (o.est = "trad_local" → drdidCall f o df =
      .ok (some (eff33 o.level w d post ml (reg w false) (aY df)))) ∧
    (o.est = "imp" → drdidCall f o df =
      .ok (some (eff33 o.level w d post tilt (reg tw false) (aY df)))) := by
  intro w d post reg ml tilt tw
  obtain ⟨h1, h2, h3, h4⟩ := ho
  have hn : ¬ o.nBoot < 1 := by omega
  have hfour := h.four
  have hne := hfour.nonempty
  refine ⟨?_, ?_, ?_, ?_⟩
  · intro he
    have hch : drChoose o = .ok .effRC := by
      rcases h3 with h3 | h3 <;> simp [drChoose, h1, hp, he, hl.1, hl.2, h3, hn]
    unfold drdidCall
    rw [hch, hp]
    dsimp only
    rw [rc_arrays f _ _ h, runRC_eq]
    unfold rcEst
    dsimp only
    unfold drdidRC
    rw [hfour.checks, if_pos rfl]
    dsimp only
    rw [← dr_eq_34]
    rfl
  · intro he
    have hch : drChoose o = .ok .impLocalRC := by
      rcases h3 with h3 | h3 <;> simp [drChoose, h1, hp, he, hl.1, hl.2, h3, hn]
    unfold drdidCall
    rw [hch, hp]
    dsimp only
    rw [rc_arrays f _ _ h, runRC_eq]
    unfold rcEst
    dsimp only
    unfold drdidImpLocalRC
    rw [hfour.checks, if_pos rfl]
    dsimp only
    rw [← dr_eq_34]
    rfl
  · intro he
    have hch : drChoose o = .ok .tradRC := by
      rcases h3 with h3 | h3 <;> simp [drChoose, h1, hp, he, hl.1, hl.2, h3, hn]
    unfold drdidCall
    rw [hch, hp]
    dsimp only
    rw [rc_arrays f _ _ h, runRC_eq]
    unfold rcEst
    dsimp only
    unfold drdidTradRC
    rw [hfour.checks, if_pos rfl]
    dsimp only
    rw [← trad_eq_33]
    rfl
  · intro he
    have hch : drChoose o = .ok .impRC := by
      rcases h3 with h3 | h3 <;> simp [drChoose, h1, hp, he, hl.1, hl.2, h3, hn]
    unfold drdidCall
    rw [hch, hp]
    dsimp only
    rw [rc_arrays f _ _ h, runRC_eq]
    unfold rcEst
    dsimp only
    unfold drdidImpRC
    rw [hfour.checks, if_pos rfl]
    dsimp only
    rw [← trad_eq_33]
    rfl

/-! ### The default is not (3.4) -/

/-- Saturated fits on an intercept and a binary covariate (column `true`): cell means, treated shares. -/
def satFits : Fits Bool ℚ where
  ols := fun n w sel x y k =>
    let m := fun z => wavg w (fun i => sel i = true ∧ x i true = z) y
    if k then m 1 - m 0 else m 0
  logit := fun n w d x i => wavg w (fun j => x j true = x i true) (fun j => if d j then 1 else 0)
  ipt := fun n w d x i => wavg w (fun j => x j true = x i true) (fun j => if d j then 1 else 0)

/-- Row with binary covariate `z`. -/
def zRow (u : ℕ) (t d : ℤ) (y z : ℚ) : Row ℕ ℤ (Obs Bool ℚ) := ⟨u, t, ⟨d, some ⟨y, 1, fun k => if k then z else 1⟩⟩⟩

/-- The share of `z = 1` among the treated is 1/2 before and 2/3 after; the effect is 1 for `z = 1` and 0 for `z = 0`. -/
def zFrame : List (Row ℕ ℤ (Obs Bool ℚ)) :=
  [zRow 1 0 1 0 0, zRow 2 0 1 0 1, zRow 3 1 1 0 0, zRow 4 1 1 1 1, zRow 5 1 1 1 1,
   zRow 6 0 0 0 0, zRow 7 0 0 0 1, zRow 8 1 0 0 0, zRow 9 1 0 0 1]

def zOpts (m : String) : Opts ℚ := ⟨true, false, false, m, 199 / 200, "weighted", 999⟩

lemma zFrame_ok : RCFrame zFrame 0 1 := by
  refine ⟨by decide, ?_, ?_, ?_, ?_⟩
  · simp [zFrame, zRow]
  · simp [zFrame, zRow]
  · simp [zFrame, zRow]
  · rintro a t (rfl | rfl) (rfl | rfl) <;> simp [zFrame, zRow, cellRows, List.filterMap_cons] <;> norm_num

/-- The saturated fits solve the equations of the fitting routines on the example: score equations, tilting equations,
normal equations of the four regressions (the odds-weighted ones included). -/
lemma satFits_solve :
    let w := normalize (aW zFrame)
    let d := aD zFrame
    let ps := satFits.logit _ w d (aX zFrame)
    let tw := fun i => w i * (clip lo hi ps i / (1 - clip lo hi ps i))
    ScoreEq w d (aX zFrame) ps ∧
    (∀ k, ∑ i with d i = true, w i * aX zFrame i k = ∑ i with d i = false, w i * (ps i / (1 - ps i)) * aX zFrame i k) ∧
    (∀ a b, NormalEq w (cellSel d (aP zFrame 1) b a) (aX zFrame) (aY zFrame)
      (satFits.ols _ w (cellSel d (aP zFrame 1) b a) (aX zFrame) (aY zFrame))) ∧
    (∀ b, NormalEq tw (cellSel d (aP zFrame 1) b false) (aX zFrame) (aY zFrame)
      (satFits.ols _ tw (cellSel d (aP zFrame 1) b false) (aX zFrame) (aY zFrame))) := by
  refine ⟨?_, ?_, ?_, ?_⟩
  · unfold ScoreEq; decide +kernel
  · decide +kernel
  · unfold NormalEq; decide +kernel
  · unfold NormalEq; decide +kernel

/-- **C220 violated.** The documentation says that with `panel=False` the function implements the locally efficient
estimator (3.4), with regressions for treated and comparison units, and that the default method is the improved locally
efficient estimator. The default is (3.3): on a saturated design where all fits are exact it returns 2/3, while (3.4) —
the average effect over the treated of both periods, whose covariate distribution is assumed stationary — is 3/5. -/
theorem C220_default_violated :
    RCFrame zFrame 0 1 ∧ drdidCall satFits (zOpts "imp") zFrame = .ok (some (2 / 3)) ∧
    drdidCall satFits (zOpts "imp_local") zFrame = .ok (some (3 / 5)) ∧
    drdidCall satFits (zOpts "trad") zFrame = .ok (some (3 / 5)) ∧
    drdidCall satFits (zOpts "trad_local") zFrame = .ok (some (2 / 3)) := by
  refine ⟨zFrame_ok, ?_, ?_, ?_, ?_⟩ <;> decide +kernel

end Verif.DR.Entry
