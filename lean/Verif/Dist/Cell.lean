import Verif.Dist.Reduce
import Verif.DR.Model
import Verif.DR.Spec
import Mathlib.Algebra.BigOperators.Fin
import Mathlib.Tactic.FieldSimp
import Mathlib.Tactic.LinearCombination

/-!
# Distributed DiD cells equal the single-machine estimators (C46), panel data

The single-machine side is `Verif.DR.Model` (`drdid_panel`, `reg_did_panel`, `std_ipw_did_panel`) with the units of all
partitions, in partition order, as the sample.
-/

set_option linter.unusedSectionVars false
set_option linter.unusedSimpArgs false

namespace Verif.Dist

variable {κ K : Type*} [Fintype κ] [Field K] [LinearOrder K] [IsStrictOrderedRing K]

/-! ## Sums over rows -/

theorem mean_rows {R : Type*} (rows : List R) (f : R → K) :
    DR.mean (fun i : Fin rows.length => f rows[i]) = (rows.map f).sum / (rows.length : K) := by
  unfold DR.mean
  rw [Fintype.card_fin]
  congr 1
  exact Fin.sum_univ_fun_getElem rows f

/-- The per-row dictionary behind `_partition_did_global_stats`. -/
def rowStats (m : Method) (level : K) (ps : (κ → K) → K) (β : κ → K) (r : PRow κ K) : Stats PS PV PM κ K :=
  let res := r.dy - outM m β r.x
  (fun s => match s with
      | .wT => wT m level ps r
      | .wC => wC m level ps r
      | .rT => wT m level ps r * res
      | .rC => wC m level ps r * res,
   fun v k => match v with
      | .wtX => wT m level ps r * r.x k
      | .wcX => wC m level ps r * r.x k
      | .wcdyX => wC m level ps r * res * r.x k,
   fun q a b => match q with
      | .xpx => (r.x a * ((if r.d then 0 else 1) * r.w)) * r.x b
      | .info => if m = .reg then 0 else (r.x a * (r.w * psM m ps r.x * (1 - psM m ps r.x))) * r.x b,
   1)

theorem stats_sum {R S V M : Type*} (l : List R) (f : R → Stats S V M κ K) :
    (l.map f).sum = (fun s => (l.map fun r => (f r).1 s).sum, fun v k => (l.map fun r => (f r).2.1 v k).sum,
      fun q a b => (l.map fun r => (f r).2.2.1 q a b).sum, (l.map fun r => (f r).2.2.2).sum) := by
  induction l with
  | nil => rfl
  | cons r l ih =>
    rw [List.map_cons, List.sum_cons, ih]
    refine Prod.ext ?_ (Prod.ext ?_ (Prod.ext ?_ ?_))
    · funext s; simp
    · funext v k; simp
    · funext q a b; simp
    · simp

theorem partStats_eq (m : Method) (level : K) (ps : (κ → K) → K) (β : κ → K) (p : List (PRow κ K)) :
    partStats m level ps β p = contribution (fun _ => true) (rowStats m level ps β) p := by
  unfold partStats contribution
  simp only [List.filter_true]
  by_cases h : p = []
  · rw [if_pos h, if_pos h]
  · rw [if_neg h, if_neg h, stats_sum]
    congr 1
    refine Prod.ext ?_ (Prod.ext ?_ (Prod.ext ?_ ?_))
    · funext s; cases s <;> rfl
    · funext v k; cases v <;> rfl
    · funext q a b
      cases q
      · rfl
      · by_cases hm : m = .reg <;> simp [rowStats, hm]
    · simp [rowStats]

/-- The driver sees the statistics of all rows, whatever the partitioning. -/
theorem agg_eq (m : Method) (level : K) (ps : (κ → K) → K) (β : κ → K) (parts : List (List (PRow κ K))) :
    (parts.map (partStats m level ps β)).foldl optAdd none = partStats m level ps β parts.flatten := by
  rw [(C44_driver_reductions _).2]
  have : partStats m level ps β = contribution (fun _ => true) (rowStats m level ps β) := by
    funext p; exact partStats_eq m level ps β p
  rw [this, totalOf_contribution]

/-! ## The cell as seen by the single-machine estimators -/

/-- Sample arrays of the concatenated partitions. -/
def smpD (rows : List (PRow κ K)) (i : Fin rows.length) : Bool := rows[i].d
def smpX (rows : List (PRow κ K)) (i : Fin rows.length) : κ → K := rows[i].x
def smpDy (rows : List (PRow κ K)) (i : Fin rows.length) : K := rows[i].y1 - rows[i].y0
def smpW (rows : List (PRow κ K)) (i : Fin rows.length) : K := rows[i].w
def smpPs (ps : (κ → K) → K) (rows : List (PRow κ K)) (i : Fin rows.length) : K := ps rows[i].x

/-- Gram matrix of the comparison units over `n`, whose inverse enters the influence function. -/
def orGram (rows : List (PRow κ K)) (a b : κ) : K :=
  DR.mean fun i : Fin rows.length => smpW rows i * (1 - DR.ind (smpD rows) i) * smpX rows i a * smpX rows i b

/-- Information matrix of the logit. -/
def infoGram (ps : (κ → K) → K) (rows : List (PRow κ K)) (a b : κ) : K :=
  ∑ i : Fin rows.length, smpW rows i * smpPs ps rows i * (1 - smpPs ps rows i) * smpX rows i a * smpX rows i b

section Link
variable (level : K) (ps : (κ → K) → K) (β : κ → K) (rows : List (PRow κ K))

theorem dnum_eq (b : Bool) : (1 : K) - dnum b = if b then 0 else 1 := by cases b <;> simp [dnum]

theorem wT_dr (m : Method) (hm : m ≠ .reg) (i : Fin rows.length) :
    wT m level ps rows[i] = DR.wTreat (smpD rows) (DR.trim level (smpD rows) (smpPs ps rows)) (smpW rows) i := by
  unfold wT keepM DR.wTreat DR.ind DR.trim smpD smpPs smpW dnum
  rw [if_neg hm]
  generalize rows[i] = r
  by_cases hd : r.d = true
  · simp [hd]
  · by_cases hl : ps r.x < level <;> simp [hd, hl]

theorem wC_dr (m : Method) (hm : m ≠ .reg) (i : Fin rows.length) :
    wC m level ps rows[i] =
      DR.wCont (smpD rows) (DR.trim level (smpD rows) (smpPs ps rows)) (smpPs ps rows) (smpW rows) i := by
  unfold wC keepM DR.wCont DR.ind DR.trim smpD smpPs smpW dnum psM
  rw [if_neg hm, if_neg hm, if_neg hm]
  generalize rows[i] = r
  by_cases hd : r.d = true
  · simp [hd]
  · by_cases hl : ps r.x < level
    · simp [hd, hl]; ring
    · simp [hd, hl]

theorem sum_rows (f : PRow κ K → K) (g : Fin rows.length → K) (h : ∀ i, f rows[i] = g i) :
    (rows.map f).sum / (rows.length : K) = DR.mean g := by
  rw [← mean_rows]
  congr 1
  funext i
  exact h i

theorem or_sel (r : PRow κ K) (e : K) (k : κ) : ((if r.d = true then (0 : K) else 1) * r.w * e) * r.x k =
    (r.w * (1 - if r.d = true then 1 else 0) * e) * r.x k := by
  rcases r with ⟨_, d, _, _, _⟩
  cases d <;> simp only [Bool.false_eq_true, if_false, if_true] <;> ring

theorem orGram_eq (a b : κ) :
    (rows.map fun r => (r.x a * ((if r.d then 0 else 1) * r.w)) * r.x b).sum / (rows.length : K) = orGram rows a b := by
  refine sum_rows rows _ _ fun i => ?_
  unfold smpW smpX DR.ind smpD
  generalize rows[i] = r
  rcases r with ⟨_, d, _, _, _⟩
  cases d <;> simp only [Bool.false_eq_true, if_false, if_true] <;> ring

theorem infoGram_eq (m : Method) (hm : m ≠ .reg) (a b : κ) :
    (rows.map fun r => (r.x a * (r.w * psM m ps r.x * (1 - psM m ps r.x))) * r.x b).sum = infoGram ps rows a b := by
  rw [← Fin.sum_univ_fun_getElem rows]
  unfold infoGram smpW smpX smpPs psM
  refine Finset.sum_congr rfl fun i _ => ?_
  rw [if_neg hm]
  simp only [Fin.getElem_fin]
  ring

theorem flatMap_rows (f : PRow κ K → K) (parts : List (List (PRow κ K))) :
    (parts.flatMap fun p => p.map f) = parts.flatten.map f := by
  induction parts with
  | nil => rfl
  | cons p ps ih => simp [ih]

theorem map_eq_ofFn (f : PRow κ K → K) : rows.map f = List.ofFn fun i : Fin rows.length => f rows[i] := by
  apply List.ext_getElem (by simp)
  intro i h1 h2
  simp

end Link

/-- C46 (doubly robust): for every partitioning of the units of a cell, the distributed estimate and all influence values
are those of `drdid_panel` on the concatenated data, with the same fitted scores and coefficients. -/
theorem C46_dr (inv : (κ → κ → K) → κ → κ → K) (level : K) (ps : (κ → K) → K) (β : κ → K)
    (parts : List (List (PRow κ K))) (rows : List (PRow κ K)) (hrows : parts.flatten = rows)
    (hT : 0 < DR.mean (DR.wTreat (smpD rows) (DR.trim level (smpD rows) (smpPs ps rows)) (smpW rows)))
    (hC : 0 < DR.mean (DR.wCont (smpD rows) (DR.trim level (smpD rows) (smpPs ps rows)) (smpPs ps rows) (smpW rows))) :
    cellDist .dr inv level ps β parts = some
      (DR.drPanel (smpD rows) (DR.trim level (smpD rows) (smpPs ps rows)) (smpPs ps rows)
          (DR.fitted (smpX rows) β) (smpDy rows) (smpW rows),
       List.ofFn (DR.drPanelIF (smpD rows) (DR.trim level (smpD rows) (smpPs ps rows)) (smpPs ps rows)
          (DR.fitted (smpX rows) β) (smpDy rows) (smpW rows) (smpX rows)
          (inv (orGram rows)) (fun a b => inv (infoGram ps rows) a b * (rows.length : K)))) := by
  have hne : rows ≠ [] := by
    rintro rfl
    simp [DR.mean] at hT
  have hdr : (Method.dr ≠ .reg) := by decide
  have hipw : (Method.dr ≠ .ipw) := by decide
  set d := smpD rows with hd
  set q := smpPs ps rows with hq
  set tr := DR.trim level d q with htr
  set w := smpW rows with hw
  set x := smpX rows with hx
  set dy := smpDy rows with hdy
  set out := DR.fitted x β with hout
  have eT : ∀ i : Fin rows.length, wT .dr level ps rows[i] = DR.wTreat d tr w i := wT_dr level ps rows .dr hdr
  have eC : ∀ i : Fin rows.length, wC .dr level ps rows[i] = DR.wCont d tr q w i := wC_dr level ps rows .dr hdr
  have eR : ∀ i : Fin rows.length, rows[i].dy - outM .dr β rows[i].x = dy i - out i := by
    intro i; simp [outM, eta, hout, DR.fitted, hx, smpX, hdy, smpDy, PRow.dy]
  have sT := sum_rows rows (wT .dr level ps) _ eT
  have sC := sum_rows rows (wC .dr level ps) _ eC
  have sRT := sum_rows rows (fun r => wT .dr level ps r * (r.dy - outM .dr β r.x))
    (fun i => DR.wTreat d tr w i * (dy i - out i)) (fun i => by rw [eT, eR])
  have sRC := sum_rows rows (fun r => wC .dr level ps r * (r.dy - outM .dr β r.x))
    (fun i => DR.wCont d tr q w i * (dy i - out i)) (fun i => by rw [eC, eR])
  have sTX : ∀ k, (rows.map fun r => wT .dr level ps r * r.x k).sum / (rows.length : K) =
      DR.mean fun i => DR.wTreat d tr w i * x i k := fun k =>
    sum_rows rows _ _ fun i => by rw [eT]; rfl
  have sCX : ∀ k, (rows.map fun r => wC .dr level ps r * r.x k).sum / (rows.length : K) =
      DR.mean fun i => DR.wCont d tr q w i * x i k := fun k =>
    sum_rows rows _ _ fun i => by rw [eC]; rfl
  have sCRX : ∀ k, (rows.map fun r => wC .dr level ps r * (r.dy - outM .dr β r.x) * r.x k).sum / (rows.length : K) =
      DR.mean fun i => DR.wCont d tr q w i * (dy i - out i) * x i k := fun k =>
    sum_rows rows _ _ fun i => by rw [eC, eR]; rfl
  unfold cellDist cellGlobal
  rw [agg_eq, hrows, partStats]
  simp only [if_neg hne, finalize, Option.bind_some, List.length_eq_zero_iff, Option.map_some, if_neg hdr, if_neg hipw,
    Option.some.injEq]
  simp only [sT, sC, sRT, sRC, orGram_eq, infoGram_eq ps rows .dr hdr, if_pos hT, if_pos hC, gt_iff_lt]
  refine Prod.ext rfl ?_
  simp only
  rw [flatMap_rows, hrows, map_eq_ofFn]
  congr 1
  funext i
  unfold rowIF DR.drPanelIF
  simp only [if_neg hdr, if_neg hipw, eT, eC, eR, DR.wmean]
  have eO : ∀ k, ((if rows[i].d = true then (0 : K) else 1) * rows[i].w * (dy i - out i)) * rows[i].x k =
      (w i * (1 - DR.ind d i) * (dy i - out i)) * x i k := fun k => or_sel rows[i] _ k
  have eS : ∀ k, (rows[i].w * (dnum rows[i].d - psM .dr ps rows[i].x)) * rows[i].x k =
      (w i * (DR.ind d i - q i)) * x i k := by
    intro k; rfl
  simp only [eO, eS]
  have dot1 : ∀ v : κ → K, ∑ k, w i * (1 - DR.ind d i) * (dy i - out i) * x i k * mulV (inv (orGram rows)) v k =
      DR.dot (DR.alrOLS (fun i => 1 - DR.ind d i) w (fun i => dy i - out i) x (inv (orGram rows)) i) v := by
    intro v
    unfold DR.dot DR.alrOLS mulV
    simp only [Finset.mul_sum, Finset.sum_mul]
    rw [Finset.sum_comm]
    exact Finset.sum_congr rfl fun a _ => Finset.sum_congr rfl fun b _ => by ring
  have dot2 : ∀ (H : κ → κ → K) (v : κ → K), ∑ k, w i * (DR.ind d i - q i) * x i k * mulV H v k =
      DR.dot (DR.alrPS d q w x H i) v := by
    intro H v
    unfold DR.dot DR.alrPS mulV
    simp only [Finset.mul_sum, Finset.sum_mul]
    rw [Finset.sum_comm]
    exact Finset.sum_congr rfl fun a _ => Finset.sum_congr rfl fun b _ => by ring
  rw [dot1, dot1, dot2]
  have m2 : (fun k => ((rows.map fun r => wC .dr level ps r * (r.dy - outM .dr β r.x) * r.x k).sum -
        (DR.mean fun i => DR.wCont d tr q w i * (dy i - out i)) / DR.mean (DR.wCont d tr q w) *
        (rows.map fun r => wC .dr level ps r * r.x k).sum) / (rows.length : K)) =
      fun k => DR.mean fun j => (DR.wCont d tr q w j * (dy j - out j) - DR.wCont d tr q w j *
        ((DR.mean fun i => DR.wCont d tr q w i * (dy i - out i)) / DR.mean (DR.wCont d tr q w))) * x j k := by
    funext k
    rw [sub_div, sCRX, mul_div_assoc, sCX]
    unfold DR.mean
    rw [mul_div_assoc', ← sub_div, Finset.mul_sum, ← Finset.sum_sub_distrib]
    congr 1
    exact Finset.sum_congr rfl fun j _ => by ring
  simp only [m2, sTX, sCX]
  ring

/-- C46 (inverse probability weighting): the same for `std_ipw_did_panel`; the outcome coefficients are irrelevant. -/
theorem C46_ipw (inv : (κ → κ → K) → κ → κ → K) (level : K) (ps : (κ → K) → K) (β : κ → K)
    (parts : List (List (PRow κ K))) (rows : List (PRow κ K)) (hrows : parts.flatten = rows)
    (hT : 0 < DR.mean (DR.wTreat (smpD rows) (DR.trim level (smpD rows) (smpPs ps rows)) (smpW rows)))
    (hC : 0 < DR.mean (DR.wCont (smpD rows) (DR.trim level (smpD rows) (smpPs ps rows)) (smpPs ps rows) (smpW rows))) :
    cellDist .ipw inv level ps β parts = some
      (DR.ipwPanel (smpD rows) (DR.trim level (smpD rows) (smpPs ps rows)) (smpPs ps rows) (smpDy rows) (smpW rows),
       List.ofFn (DR.ipwPanelIF (smpD rows) (DR.trim level (smpD rows) (smpPs ps rows)) (smpPs ps rows)
          (smpDy rows) (smpW rows) (smpX rows) (fun a b => inv (infoGram ps rows) a b * (rows.length : K)))) := by
  have hne : rows ≠ [] := by
    rintro rfl
    simp [DR.mean] at hT
  have hdr : (Method.ipw ≠ .reg) := by decide
  have hipw : (Method.ipw = .ipw) := rfl
  set d := smpD rows with hd
  set q := smpPs ps rows with hq
  set tr := DR.trim level d q with htr
  set w := smpW rows with hw
  set x := smpX rows with hx
  set dy := smpDy rows with hdy
  have eT : ∀ i : Fin rows.length, wT .ipw level ps rows[i] = DR.wTreat d tr w i := wT_dr level ps rows .ipw hdr
  have eC : ∀ i : Fin rows.length, wC .ipw level ps rows[i] = DR.wCont d tr q w i := wC_dr level ps rows .ipw hdr
  have eR : ∀ i : Fin rows.length, rows[i].dy - outM .ipw β rows[i].x = dy i := by
    intro i; simp [outM, hdy, smpDy, PRow.dy]
  have sT := sum_rows rows (wT .ipw level ps) _ eT
  have sC := sum_rows rows (wC .ipw level ps) _ eC
  have sRT := sum_rows rows (fun r => wT .ipw level ps r * (r.dy - outM .ipw β r.x))
    (fun i => DR.wTreat d tr w i * dy i) (fun i => by rw [eT, eR])
  have sRC := sum_rows rows (fun r => wC .ipw level ps r * (r.dy - outM .ipw β r.x))
    (fun i => DR.wCont d tr q w i * dy i) (fun i => by rw [eC, eR])
  have sTX : ∀ k, (rows.map fun r => wT .ipw level ps r * r.x k).sum / (rows.length : K) =
      DR.mean fun i => DR.wTreat d tr w i * x i k := fun k =>
    sum_rows rows _ _ fun i => by rw [eT]; rfl
  have sCX : ∀ k, (rows.map fun r => wC .ipw level ps r * r.x k).sum / (rows.length : K) =
      DR.mean fun i => DR.wCont d tr q w i * x i k := fun k =>
    sum_rows rows _ _ fun i => by rw [eC]; rfl
  have sCRX : ∀ k, (rows.map fun r => wC .ipw level ps r * (r.dy - outM .ipw β r.x) * r.x k).sum / (rows.length : K) =
      DR.mean fun i => DR.wCont d tr q w i * dy i * x i k := fun k =>
    sum_rows rows _ _ fun i => by rw [eC, eR]; rfl
  unfold cellDist cellGlobal
  rw [agg_eq, hrows, partStats]
  simp only [if_neg hne, finalize, Option.bind_some, List.length_eq_zero_iff, Option.map_some, if_neg hdr, if_true,
    Option.some.injEq]
  simp only [sT, sC, sRT, sRC, orGram_eq, infoGram_eq ps rows .ipw hdr, if_pos hT, if_pos hC, gt_iff_lt]
  have hTn := hT.ne'
  have hCn := hC.ne'
  have hm : ∀ (v : Fin rows.length → K), DR.mean (fun i => v i * dy i / DR.mean v) = DR.mean (fun i => v i * dy i) / DR.mean v := by
    intro v
    unfold DR.mean
    rw [← Finset.sum_div]
    ring
  refine Prod.ext ?_ ?_
  · simp only [DR.ipwPanel, hm]
  simp only
  rw [flatMap_rows, hrows, map_eq_ofFn]
  congr 1
  funext i
  unfold rowIF DR.ipwPanelIF
  simp only [if_neg hdr, if_true, eT, eC, eR, hm]
  have eS : ∀ k, (rows[i].w * (dnum rows[i].d - psM .ipw ps rows[i].x)) * rows[i].x k =
      (w i * (DR.ind d i - q i)) * x i k := by
    intro k; rfl
  simp only [eS]
  have dot2 : ∀ (H : κ → κ → K) (v : κ → K), ∑ k, w i * (DR.ind d i - q i) * x i k * mulV H v k =
      DR.dot (DR.alrPS d q w x H i) v := by
    intro H v
    unfold DR.dot DR.alrPS mulV
    simp only [Finset.mul_sum, Finset.sum_mul]
    rw [Finset.sum_comm]
    exact Finset.sum_congr rfl fun a _ => Finset.sum_congr rfl fun b _ => by ring
  rw [dot2]
  have m2 : (fun k => ((rows.map fun r => wC .ipw level ps r * (r.dy - outM .ipw β r.x) * r.x k).sum -
        (DR.mean fun i => DR.wCont d tr q w i * dy i) / DR.mean (DR.wCont d tr q w) *
        (rows.map fun r => wC .ipw level ps r * r.x k).sum) / (rows.length : K)) =
      fun k => DR.mean fun j => (DR.wCont d tr q w j * (dy j -
        ((DR.mean fun i => DR.wCont d tr q w i * dy i) / DR.mean (DR.wCont d tr q w)))) * x j k := by
    funext k
    rw [sub_div, sCRX, mul_div_assoc, sCX]
    unfold DR.mean
    rw [mul_div_assoc', ← sub_div, Finset.mul_sum, ← Finset.sum_sub_distrib]
    congr 1
    exact Finset.sum_congr rfl fun j _ => by ring
  rw [m2]
  have dd : ∀ (v : κ → K) (c : K), DR.dot (DR.alrPS d q w x (fun a b => inv (infoGram ps rows) a b * (rows.length : K)) i)
      (fun k => v k / c) =
      DR.dot (DR.alrPS d q w x (fun a b => inv (infoGram ps rows) a b * (rows.length : K)) i) v / c := by
    intro v c
    unfold DR.dot
    rw [Finset.sum_div]
    exact Finset.sum_congr rfl fun k _ => by ring
  rw [dd]
  ring

/-- C46 (outcome regression): for every partitioning, the distributed regression estimate and its influence values are
those of `reg_did_panel`.  The distributed code also averages the comparison units' residuals; with an intercept (column
`c`) and least-squares coefficients (normal equations) that average is zero, and its influence term cancels when `inv`
inverts the comparison units' Gram matrix. -/
theorem C46_reg [DecidableEq κ] (inv : (κ → κ → K) → κ → κ → K) (level : K) (ps : (κ → K) → K) (β : κ → K)
    (parts : List (List (PRow κ K))) (rows : List (PRow κ K)) (hrows : parts.flatten = rows)
    (c : κ) (hc : ∀ r ∈ rows, r.x c = 1)
    (hN : DR.NormalEq (smpW rows) (DR.notB (smpD rows)) (smpX rows) (smpDy rows) β)
    (hinv : ∀ a b, ∑ l, inv (orGram rows) a l * orGram rows l b = if a = b then 1 else 0)
    (hT : 0 < DR.mean (fun i => smpW rows i * DR.ind (smpD rows) i))
    (hC : 0 < DR.mean (fun i => smpW rows i * (1 - DR.ind (smpD rows) i))) :
    cellDist .reg inv level ps β parts = some
      (DR.regPanel (smpD rows) (DR.fitted (smpX rows) β) (smpDy rows) (smpW rows),
       List.ofFn (DR.regPanelIF (smpD rows) (DR.fitted (smpX rows) β) (smpDy rows) (smpW rows) (smpX rows)
          (inv (orGram rows)))) := by
  have hne : rows ≠ [] := by
    rintro rfl
    simp [DR.mean] at hT
  have hreg : (Method.reg = .reg) := rfl
  have hipw : (Method.reg ≠ .ipw) := by decide
  set d := smpD rows with hd
  set w := smpW rows with hw
  set x := smpX rows with hx
  set dy := smpDy rows with hdy
  set out := DR.fitted x β with hout
  have hxc : ∀ i, x i c = 1 := fun i => hc _ (List.getElem_mem _)
  have eT : ∀ i : Fin rows.length, wT .reg level ps rows[i] = w i * DR.ind d i := by
    intro i; simp [wT, keepM, hw, hd, smpW, smpD, DR.ind, dnum]
  have eC : ∀ i : Fin rows.length, wC .reg level ps rows[i] = w i * (1 - DR.ind d i) := by
    intro i
    simp only [wC, keepM, if_pos, one_mul, hw, hd, smpW, smpD, DR.ind, dnum, mul_comm]
  have eR : ∀ i : Fin rows.length, rows[i].dy - outM .reg β rows[i].x = dy i - out i := by
    intro i; simp [outM, eta, hout, DR.fitted, hx, smpX, hdy, smpDy, PRow.dy]
  have sT := sum_rows rows (wT .reg level ps) _ eT
  have sC := sum_rows rows (wC .reg level ps) _ eC
  have sRT := sum_rows rows (fun r => wT .reg level ps r * (r.dy - outM .reg β r.x))
    (fun i => w i * DR.ind d i * (dy i - out i)) (fun i => by rw [eT, eR])
  have sRC := sum_rows rows (fun r => wC .reg level ps r * (r.dy - outM .reg β r.x))
    (fun i => w i * (1 - DR.ind d i) * (dy i - out i)) (fun i => by rw [eC, eR])
  have sTX : ∀ k, (rows.map fun r => wT .reg level ps r * r.x k).sum / (rows.length : K) =
      DR.mean fun i => w i * DR.ind d i * x i k := fun k =>
    sum_rows rows _ _ fun i => by rw [eT]; rfl
  have sCX : ∀ k, (rows.map fun r => wC .reg level ps r * r.x k).sum / (rows.length : K) = orGram rows k c := fun k =>
    sum_rows rows _ _ fun i => by rw [eC, show smpX rows i c = 1 from hxc i, mul_one]; rfl
  have hres : DR.mean (fun i => w i * (1 - DR.ind d i) * (dy i - out i)) = 0 := by
    have := hN c
    unfold DR.mean
    have e : ∑ i, w i * (1 - DR.ind d i) * (dy i - out i) =
        ∑ i with DR.notB d i = true, w i * (dy i - ∑ l, x i l * β l) * x i c := by
      rw [Finset.sum_filter]
      refine Finset.sum_congr rfl fun i _ => ?_
      rw [hxc i]
      unfold DR.notB DR.ind
      cases hdi : d i
      · simp [hout, DR.fitted]
      · simp
    rw [e, this, zero_div]
  unfold cellDist cellGlobal
  rw [agg_eq, hrows, partStats]
  simp only [if_neg hne, finalize, Option.bind_some, List.length_eq_zero_iff, Option.map_some, if_neg hipw, if_true,
    Option.some.injEq]
  simp only [sT, sC, sRT, sRC, orGram_eq, if_pos hT, if_pos hC, gt_iff_lt, hres, zero_div, sub_zero]
  have hsub : DR.wmean (fun i => w i * DR.ind d i) (fun i => dy i - out i) =
      DR.wmean (fun i => w i * DR.ind d i) dy - DR.wmean (fun i => w i * DR.ind d i) out := by
    unfold DR.wmean
    rw [← sub_div]
    congr 1
    unfold DR.mean
    rw [← sub_div, ← Finset.sum_sub_distrib]
    congr 1
    exact Finset.sum_congr rfl fun i _ => by ring
  refine Prod.ext ?_ ?_
  · exact hsub
  simp only
  rw [flatMap_rows, hrows, map_eq_ofFn]
  congr 1
  funext i
  have hsub' := hsub
  unfold DR.wmean at hsub'
  unfold rowIF DR.regPanelIF
  simp only [if_true, if_neg hipw, eT, eC, eR, DR.wmean, hsub', mul_zero, sub_zero, add_zero]
  have eO : ∀ k, ((if rows[i].d = true then (0 : K) else 1) * rows[i].w * (dy i - out i)) * rows[i].x k =
      (w i * (1 - DR.ind d i) * (dy i - out i)) * x i k := fun k => or_sel rows[i] _ k
  simp only [eO, sTX, sCX]
  have dot1 : ∀ v : κ → K, ∑ k, w i * (1 - DR.ind d i) * (dy i - out i) * x i k * mulV (inv (orGram rows)) v k =
      DR.dot (DR.alrOLS (fun i => 1 - DR.ind d i) w (fun i => dy i - out i) x (inv (orGram rows)) i) v := by
    intro v
    unfold DR.dot DR.alrOLS mulV
    simp only [Finset.mul_sum, Finset.sum_mul]
    rw [Finset.sum_comm]
    exact Finset.sum_congr rfl fun a _ => Finset.sum_congr rfl fun b _ => by ring
  have hcan : ∑ k, w i * (1 - DR.ind d i) * (dy i - out i) * x i k * mulV (inv (orGram rows)) (fun k => orGram rows k c) k =
      w i * (1 - DR.ind d i) * (dy i - out i) := by
    unfold mulV
    simp only [hinv, mul_ite, mul_one, mul_zero, Finset.sum_ite_eq', Finset.mem_univ, if_true, hxc]
  rw [hcan, dot1]
  ring

/-- One treated and two comparison units in two partitions, intercept only: all hypotheses of `C46_reg` hold and the
estimate is the difference of mean changes. -/
def exRows : List (List (PRow (Fin 1) ℚ)) :=
  [[⟨fun _ => 1, true, 7, 1, 1⟩, ⟨fun _ => 1, false, 3, 1, 1⟩], [], [⟨fun _ => 1, false, 4, 1, 3⟩]]

example : (cellDist .reg (fun A a b => 1 / A a b) 1 (fun _ => 1 / 2) (fun _ => 11 / 4) exRows).map Prod.fst =
    some (6 - 11 / 4) := by decide +kernel

example : (cellDist .dr (fun A a b => 1 / A a b) 1 (fun _ => 1 / 2) (fun _ => 11 / 4) exRows).map Prod.fst =
    some (6 - 11 / 4) ∧
    (cellDist .ipw (fun A a b => 1 / A a b) 1 (fun _ => 1 / 2) (fun _ => 0) exRows).map Prod.fst =
    some (6 - 11 / 4) := by decide +kernel

example : DR.NormalEq (smpW exRows.flatten) (DR.notB (smpD exRows.flatten)) (smpX exRows.flatten) (smpDy exRows.flatten)
    (fun _ => 11 / 4) ∧ (∀ r ∈ exRows.flatten, r.x 0 = 1) ∧ orGram exRows.flatten 0 0 = 4 / 3 ∧
    0 < DR.mean (fun i => smpW exRows.flatten i * DR.ind (smpD exRows.flatten) i) ∧
    0 < DR.mean (fun i => smpW exRows.flatten i * (1 - DR.ind (smpD exRows.flatten) i)) := by
  unfold DR.NormalEq
  decide +kernel

/-- C46: a cell without any unit yields no estimate, however many empty partitions there are. -/
theorem C46_empty (m : Method) (inv : (κ → κ → K) → κ → κ → K) (level : K) (ps : (κ → K) → K) (β : κ → K)
    (parts : List (List (PRow κ K))) (h : ∀ p ∈ parts, p = []) : cellDist m inv level ps β parts = none := by
  have : parts.flatten = [] := List.flatten_eq_nil_iff.2 h
  unfold cellDist cellGlobal
  rw [agg_eq, this]
  rfl

example : cellDist .dr (fun A a b => 1 / A a b) 1 (fun _ => 1 / 2) (fun _ => (0 : ℚ)) ([[], []] : List (List (PRow (Fin 1) ℚ))) = none := by
  exact C46_empty _ _ _ _ _ _ (by simp)

/-- **C46 (scores).** The distributed score lies between its bounds and equals the single-machine score (lower bound `lo'`
instead of `lo`) whenever the fitted probability is not below the larger lower bound. -/
theorem C46_scores (σ : K → K) (lo lo' hi cap : K) (β x : κ → K) (h1 : lo ≤ lo') (h2 : lo' ≤ cap) (h3 : cap ≤ hi) :
    lo ≤ pscore σ lo hi cap β x ∧ pscore σ lo hi cap β x ≤ cap ∧
    (lo ≤ σ (eta x β) → σ (eta x β) ≤ cap → pscore σ lo hi cap β x = σ (eta x β)) ∧
    (lo' ≤ σ (eta x β) → pscore σ lo hi cap β x = localPscore σ lo' cap β x) := by
  unfold pscore localPscore
  refine ⟨le_min (le_min (le_max_right _ _) (h1.trans (h2.trans h3))) (h1.trans h2), min_le_right _ _, ?_, ?_⟩
  · intro ha hb
    rw [max_eq_left ha, min_eq_left (hb.trans h3), min_eq_left hb]
  · intro ha
    rw [max_eq_left (h1.trans ha), max_eq_left ha, min_assoc, min_eq_right h3]

/-- **C46 (scores, violated).** For a fitted probability below the larger lower bound the two scores differ: the distributed
one (bound `1e-10`) is smaller than the single-machine one (bound `1e-6`). -/
theorem C46_scores_violated (σ : K → K) (lo lo' hi cap : K) (β x : κ → K) (h1 : lo < lo') (h2 : lo' ≤ cap) (h3 : cap ≤ hi)
    (hs : σ (eta x β) < lo') : pscore σ lo hi cap β x < localPscore σ lo' cap β x := by
  unfold pscore localPscore
  rw [max_eq_right hs.le, min_eq_left h2]
  exact lt_of_le_of_lt ((min_le_left _ _).trans (min_le_left _ _)) (max_lt hs h1)

example : pscore (fun v : ℚ => v) (1 / 10 ^ 10) (1 - 1 / 10 ^ 10) (1 - 1 / 10 ^ 6) (fun _ : Fin 1 => 1 / 10 ^ 8) (fun _ => 1) = 1 / 10 ^ 8 ∧
    localPscore (fun v : ℚ => v) (1 / 10 ^ 6) (1 - 1 / 10 ^ 6) (fun _ : Fin 1 => 1 / 10 ^ 8) (fun _ => 1) = 1 / 10 ^ 6 := by
  decide +kernel

end Verif.Dist
