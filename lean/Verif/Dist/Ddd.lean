import Verif.Dist.Cell
import Verif.Triple.Model

/-!
# C178: distributed triple-difference cells equal `ddd_panel`

Model of `distributed/_ddd_partition.py:12-396` and of `spark/_ddd_streaming.py` / `dask/_ddd_streaming.py`,
`streaming_cell_single_control`, `streaming_global_stats`.
-/

set_option linter.unusedSectionVars false
set_option linter.unusedSimpArgs false

namespace Verif.Dist

variable {κ K : Type*} [Fintype κ] [Field K] [LinearOrder K] [IsStrictOrderedRing K]

/-! ## Model -/

/-- `subgroup`, `_ddd_partition.py:23-25,65-67,107-109,160-162,420-422`: `treat` is `groups == g`, `part` the integer eligibility code. -/
def sgCode (treat : Bool) (part : ℤ) : ℤ :=
  let t : ℤ := if treat then 1 else 0
  4 * t * part + 3 * t * (1 - part) + 2 * (1 - t) * part + 1 * (1 - t) * (1 - part)

/-- One unit of a triple-difference cell, `_ddd_partition.py:39-49`. -/
structure TRow (κ K : Type*) where
  id : ℤ
  x : κ → K
  sg : ℕ
  y1 : K
  y0 : K
  w : K

/-- `(sg == 4) | (sg == comp_sg)`, `_ddd_partition.py:183,224,323`. -/
def inComp (c : ℕ) (r : TRow κ K) : Bool := decide (r.sg = 4) || decide (r.sg = c)

/-- The arrays of one comparison, with `pa4` as treatment indicator, `_ddd_partition.py:228-238,331-336`.  (`pa_comp` is `1 - pa4` on the
comparison, because `comp_sg ≠ 4`.) -/
def toP (r : TRow κ K) : PRow κ K := ⟨r.x, decide (r.sg = 4), r.y1, r.y0, r.w⟩

/-- The rows of one partition that belong to the comparison. -/
def compPart (c : ℕ) (p : List (TRow κ K)) : List (PRow κ K) := (p.filter (inComp c)).map toP

/-- `streaming_global_stats` for one comparison, `dask/_ddd_streaming.py:1094-1113`, `spark/_ddd_streaming.py`: `_partition_global_stats`
(`_ddd_partition.py:218-289`) computes on the comparison's rows what `_partition_did_global_stats` computes on a cell, and the sums go
through the same `_finalize_global_stats`. -/
def compGlobal (m : Method) (inv : (κ → κ → K) → κ → κ → K) (level : K) (ps : ℕ → (κ → K) → K) (β : ℕ → κ → K)
    (parts : List (List (TRow κ K))) (c : ℕ) : Option (Global κ K) :=
  cellGlobal m inv level (ps c) (β c) (parts.map (compPart c))

/-- `n_sub` of one comparison. -/
def nSub (c : ℕ) (parts : List (List (TRow κ K))) : ℕ := (parts.map fun p => (compPart c p).length).sum

/-- `n / n_c if n_c > 0 else 0.0`, `dask/_ddd_streaming.py:195-201`. -/
def compWeight (c : ℕ) (parts : List (List (TRow κ K))) : K :=
  if 0 < nSub c parts then ((parts.map List.length).sum : K) / (nSub c parts : K) else 0

/-- `inf_full` of one comparison: zero outside it, `_ddd_partition.py:392-393`. -/
def compRowIF (m : Method) (level : K) (ps : ℕ → (κ → K) → K) (β : ℕ → κ → K) (g : Global κ K) (c : ℕ) (r : TRow κ K) : K :=
  if inComp c r then rowIF m level (ps c) (β c) g (toP r) else 0

/-- One cell: the estimate and, partition by partition, the units with their influence values, `dask/_ddd_streaming.py:182-232`,
`_ddd_partition.py:292-396` (before the scaling by `n_units / n_cell`). -/
def dddDist (m : Method) (inv : (κ → κ → K) → κ → κ → K) (level : K) (ps : ℕ → (κ → K) → K) (β : ℕ → κ → K)
    (parts : List (List (TRow κ K))) : Option (K × List (ℤ × K)) :=
  (compGlobal m inv level ps β parts 3).bind fun g3 =>
    (compGlobal m inv level ps β parts 2).bind fun g2 =>
      (compGlobal m inv level ps β parts 1).map fun g1 =>
        (g3.att + g2.att - g1.att, parts.flatMap fun p => p.map fun r =>
          (r.id, compWeight 3 parts * compRowIF m level ps β g3 3 r + compWeight 2 parts * compRowIF m level ps β g2 2 r +
            -compWeight 1 parts * compRowIF m level ps β g1 1 r))

/-! ## The cell as seen by the single-machine estimator -/

/-- The method of the single-machine code. -/
def estOf : Method → Triple.Est
  | .dr => .dr
  | .reg => .reg
  | .ipw => .ipw

def tSg (rows : List (TRow κ K)) (i : Fin rows.length) : ℕ := rows[i].sg
def tX (rows : List (TRow κ K)) (i : Fin rows.length) : κ → K := rows[i].x
def tDy (rows : List (TRow κ K)) (i : Fin rows.length) : K := rows[i].y1 - rows[i].y0
def tW (rows : List (TRow κ K)) (i : Fin rows.length) : K := rows[i].w

/-- The single-machine fits return the coefficients the distributed fits return: scores (after the cap `hi`), regression coefficients, scaled
inverse information matrix and the inverse of the Gram matrix. -/
structure SameFits (m : Method) (inv : (κ → κ → K) → κ → κ → K) (hi : K) (ps : ℕ → (κ → K) → K) (β : ℕ → κ → K)
    (rows : List (TRow κ K)) (F : Triple.Fits (tSg rows) κ K) : Prop where
  inv_eq : F.inv = inv
  score : m ≠ .reg → ∀ c ∈ [1, 2, 3], ∀ i : Triple.Sub (tSg rows) c,
    min (F.logit c (Triple.onSub (tSg rows) c (tW rows)) (Triple.pa4 (tSg rows) c) (Triple.onSub (tSg rows) c (tX rows)) i) hi =
      ps c rows[i.1].x
  coef : m ≠ .ipw → ∀ c ∈ [1, 2, 3],
    F.ols c (Triple.onSub (tSg rows) c (tW rows)) (Triple.paComp (tSg rows) c) (Triple.onSub (tSg rows) c (tX rows))
      (Triple.onSub (tSg rows) c (tDy rows)) = β c
  info : m ≠ .reg → ∀ c ∈ [1, 2, 3], F.hess c (fun i => ps c rows[i.1].x) = fun a b =>
    inv (fun a b => ∑ i : Triple.Sub (tSg rows) c, rows[i.1].w * ps c rows[i.1].x * (1 - ps c rows[i.1].x) * rows[i.1].x a * rows[i.1].x b) a b *
      (Fintype.card (Triple.Sub (tSg rows) c) : K)

/-! ## Lemmas -/

theorem sum_filter_fin {R : Type*} (rows : List R) (q : R → Bool) (f : R → K) :
    ((rows.filter q).map f).sum = ∑ i : Fin rows.length, if q rows[i] then f rows[i] else 0 := by
  have : ((rows.filter q).map f).sum = (rows.map fun r => if q r then f r else 0).sum := by
    induction rows with
    | nil => rfl
    | cons a t ih =>
      by_cases h : q a = true
      · rw [List.filter_cons_of_pos h]; simp [h, ih]
      · rw [List.filter_cons_of_neg h]; simp [h, ih]
  rw [this]
  exact (Fin.sum_univ_fun_getElem rows fun r => if q r then f r else 0).symm

theorem sub_iff (rows : List (TRow κ K)) (c : ℕ) (i : Fin rows.length) : inComp c rows[i] = true ↔ (tSg rows i = 4 ∨ tSg rows i = c) := by
  simp [inComp, tSg]

theorem sum_sub (rows : List (TRow κ K)) (c : ℕ) (f : TRow κ K → K) :
    ∑ i : Triple.Sub (tSg rows) c, f rows[i.1] = ((rows.filter (inComp c)).map f).sum := by
  rw [sum_filter_fin, ← Finset.sum_filter]
  refine (Finset.sum_subtype (p := fun i => tSg rows i = 4 ∨ tSg rows i = c) _ (fun i => ?_) (fun i => f rows[i])).symm
  rw [Finset.mem_filter, sub_iff]
  simp

theorem card_sub (rows : List (TRow κ K)) (c : ℕ) : Fintype.card (Triple.Sub (tSg rows) c) = (rows.filter (inComp c)).length := by
  have h := sum_sub (K := K) rows c fun _ => 1
  simp only [Finset.sum_const, Finset.card_univ, nsmul_eq_mul, mul_one, List.map_const', List.sum_replicate] at h
  exact_mod_cast h

theorem mean_sub (rows : List (TRow κ K)) (c : ℕ) (f : PRow κ K → K) (g : Triple.Sub (tSg rows) c → K) (h : ∀ i, f (toP rows[i.1]) = g i) :
    ((compPart c rows).map f).sum / ((compPart c rows).length : K) = DR.mean g := by
  unfold DR.mean compPart
  rw [card_sub, List.length_map, List.map_map]
  congr 1
  rw [← sum_sub rows c (f ∘ toP)]
  exact Finset.sum_congr rfl fun i _ => h i

theorem flatten_compPart (c : ℕ) (parts : List (List (TRow κ K))) : (parts.map (compPart c)).flatten = compPart c parts.flatten := by
  induction parts with
  | nil => rfl
  | cons p t ih => simp only [List.map_cons, List.flatten_cons, ih]; unfold compPart; rw [List.filter_append, List.map_append]

theorem nSub_eq (c : ℕ) (parts : List (List (TRow κ K))) : nSub c parts = (compPart c parts.flatten).length := by
  rw [← flatten_compPart, List.length_flatten, List.map_map]
  rfl

section One
variable {m : Method} {inv : (κ → κ → K) → κ → κ → K} {hi level : K} {ps : ℕ → (κ → K) → K} {β : ℕ → κ → K} {rows : List (TRow κ K)}
  {F : Triple.Fits (tSg rows) κ K}

theorem nuis_ps (h : SameFits m inv hi ps β rows F) {c : ℕ} (hc : c ∈ [1, 2, 3]) (i : Triple.Sub (tSg rows) c) :
    (Triple.nuis F (estOf m) hi level c (tW rows) (tX rows) (tDy rows)).ps i = psM m (ps c) rows[i.1].x := by
  unfold Triple.nuis psM
  cases m <;> simp [estOf]
  · exact h.score (by decide) c hc i
  · exact h.score (by decide) c hc i

theorem nuis_keep (h : SameFits m inv hi ps β rows F) {c : ℕ} (hc : c ∈ [1, 2, 3]) (i : Triple.Sub (tSg rows) c) :
    DR.ind (Triple.nuis F (estOf m) hi level c (tW rows) (tX rows) (tDy rows)).keep i = keepM m level (ps c) (toP rows[i.1]) := by
  have hs := fun hm => h.score hm c hc i
  unfold Triple.nuis keepM DR.ind toP
  by_cases hm : m = .reg
  · subst hm; simp [estOf]
  · have hm' : estOf m ≠ .reg := by cases m <;> simp_all [estOf]
    simp only [if_neg hm, if_neg hm', hs hm]
    have e : Triple.pa4 (tSg rows) c i = decide (rows[i.1].sg = 4) := rfl
    rw [e]
    generalize rows[i.1] = r
    by_cases h4 : r.sg = 4
    · simp [h4]
    · simp [h4]

theorem nuis_out (h : SameFits m inv hi ps β rows F) {c : ℕ} (hc : c ∈ [1, 2, 3]) (i : Triple.Sub (tSg rows) c) :
    (Triple.nuis F (estOf m) hi level c (tW rows) (tX rows) (tDy rows)).out i = outM m (β c) rows[i.1].x := by
  unfold Triple.nuis outM
  by_cases hm : m = .ipw
  · subst hm; simp [estOf]
  · have hm' : estOf m ≠ .ipw := by cases m <;> simp_all [estOf]
    simp only [if_neg hm, if_neg hm', h.coef hm c hc]
    rfl

theorem nuis_H (h : SameFits m inv hi ps β rows F) (hm : m ≠ .reg) {c : ℕ} (hc : c ∈ [1, 2, 3]) :
    (Triple.nuis F (estOf m) hi level c (tW rows) (tX rows) (tDy rows)).H = fun a b =>
    inv (fun a b => ∑ i : Triple.Sub (tSg rows) c, rows[i.1].w * ps c rows[i.1].x * (1 - ps c rows[i.1].x) * rows[i.1].x a * rows[i.1].x b) a b *
      (Fintype.card (Triple.Sub (tSg rows) c) : K) := by
  have hm' : estOf m ≠ .reg := by cases m <;> simp_all [estOf]
  unfold Triple.nuis
  simp only [if_neg hm']
  rw [← h.info hm c hc]
  congr 1
  funext i
  exact h.score hm c hc i

theorem pa_num {c : ℕ} (i : Triple.Sub (tSg rows) c) : DR.ind (Triple.pa4 (tSg rows) c) i = (dnum (toP rows[i.1]).d : K) := by
  rfl

theorem paComp_num {c : ℕ} (hc : c ≠ 4) (i : Triple.Sub (tSg rows) c) :
    DR.ind (Triple.paComp (tSg rows) c) i = (if (toP rows[i.1]).d then 0 else 1 : K) := by
  have h2 : rows[i.1].sg = 4 ∨ rows[i.1].sg = c := i.2
  show (if decide (rows[i.1].sg = c) = true then (1 : K) else 0) = if decide (rows[i.1].sg = 4) = true then 0 else 1
  revert h2
  generalize rows[i.1] = r
  intro h2
  by_cases h4 : r.sg = 4
  · simp [h4, hc.symm]
  · have h5 := h2.resolve_left h4
    simp [h5, hc]

theorem wTreat_eq (h : SameFits m inv hi ps β rows F) {c : ℕ} (hc : c ∈ [1, 2, 3]) (i : Triple.Sub (tSg rows) c) :
    wT m level (ps c) (toP rows[i.1]) =
      Triple.wTreat (tSg rows) c (Triple.nuis F (estOf m) hi level c (tW rows) (tX rows) (tDy rows)) (tW rows) i := by
  unfold wT Triple.wTreat
  rw [nuis_keep h hc, pa_num]
  show _ = _ * rows[i.1].w * _
  simp only [toP]
  ring

theorem wControl_eq (h : SameFits m inv hi ps β rows F) {c : ℕ} (hc : c ∈ [1, 2, 3]) (i : Triple.Sub (tSg rows) c) :
    wC m level (ps c) (toP rows[i.1]) =
      Triple.wControl (estOf m) (tSg rows) c (Triple.nuis F (estOf m) hi level c (tW rows) (tX rows) (tDy rows)) (tW rows) i := by
  have hc4 : c ≠ 4 := by rintro rfl; simp at hc
  unfold wC Triple.wControl
  rw [nuis_keep h hc, paComp_num hc4, nuis_ps h hc, dnum_eq]
  by_cases hm : m = .reg
  · subst hm; simp only [estOf, if_true]; show _ * _ * rows[i.1].w = _ * rows[i.1].w * _; ring
  · have hm' : estOf m ≠ .reg := by cases m <;> simp_all [estOf]
    rw [if_neg hm, if_neg hm']
    show _ * psM m (ps c) rows[i.1].x * _ / (1 - psM m (ps c) rows[i.1].x) * rows[i.1].w = _ * rows[i.1].w * _ * _ / _
    ring

theorem res_eq (h : SameFits m inv hi ps β rows F) {c : ℕ} (hc : c ∈ [1, 2, 3]) (i : Triple.Sub (tSg rows) c) :
    (toP rows[i.1]).dy - outM m (β c) (toP rows[i.1]).x =
      tDy rows i.1 - (Triple.nuis F (estOf m) hi level c (tW rows) (tX rows) (tDy rows)).out i := by
  rw [nuis_out h hc]; rfl

theorem wT_nonneg (h : ∀ r ∈ rows, 0 ≤ r.w) {c : ℕ} (i : Triple.Sub (tSg rows) c) : 0 ≤ wT m level (ps c) (toP rows[i.1]) := by
  have hw : 0 ≤ rows[i.1].w := h _ (List.getElem_mem _)
  unfold wT keepM dnum
  show (0 : K) ≤ _ * _ * rows[i.1].w
  refine mul_nonneg (mul_nonneg ?_ ?_) hw <;> split_ifs <;> simp

theorem wC_nonneg (h : ∀ r ∈ rows, 0 ≤ r.w) (hp : m ≠ .reg → ∀ c, ∀ r ∈ rows, 0 ≤ ps c r.x ∧ ps c r.x < 1) {c : ℕ}
    (i : Triple.Sub (tSg rows) c) : 0 ≤ wC m level (ps c) (toP rows[i.1]) := by
  have hw : 0 ≤ rows[i.1].w := h _ (List.getElem_mem _)
  have h1 : ∀ b, (0 : K) ≤ 1 - dnum b := by intro b; rw [dnum_eq]; split_ifs <;> simp
  have h2 : 0 ≤ keepM m level (ps c) (toP rows[i.1]) := by unfold keepM; split_ifs <;> simp
  unfold wC
  split_ifs with hm
  · exact mul_nonneg (mul_nonneg h2 (h1 _)) hw
  · obtain ⟨a, b⟩ := hp hm c _ (List.getElem_mem i.1.2)
    have e : psM m (ps c) (toP rows[i.1]).x = ps c rows[i.1].x := by unfold psM; rw [if_neg hm]; rfl
    rw [e]
    exact mul_nonneg (div_nonneg (mul_nonneg (mul_nonneg h2 a) (h1 _)) (sub_nonneg.2 b.le)) hw

theorem mean_nonneg' {σ : Type*} [Fintype σ] {f : σ → K} (h : ∀ i, 0 ≤ f i) : 0 ≤ DR.mean f :=
  div_nonneg (Finset.sum_nonneg fun i _ => h i) (Nat.cast_nonneg _)

/-- One comparison: whenever the single-machine code returns, the distributed code has the same estimate and influence values. -/
theorem comp_eq (h : SameFits m inv hi ps β rows F) {c : ℕ} (hc : c ∈ [1, 2, 3]) (hw : ∀ r ∈ rows, 0 ≤ r.w)
    (hp : m ≠ .reg → ∀ c, ∀ r ∈ rows, 0 ≤ ps c r.x ∧ ps c r.x < 1) (parts : List (List (TRow κ K))) (hrows : parts.flatten = rows)
    {a : K} {f : Fin rows.length → K}
    (hok : Triple.compDid F.inv (estOf m) (tSg rows) c (Triple.nuis F (estOf m) hi level c (tW rows) (tX rows) (tDy rows)) (tW rows)
      (tX rows) (tDy rows) = .ok (a, f)) :
    ∃ g, compGlobal m inv level ps β parts c = some g ∧ g.att = a ∧ ∀ i, compRowIF m level ps β g c rows[i] = f i := by
  have hc4 : c ≠ 4 := by rintro rfl; simp at hc
  set N := Triple.nuis F (estOf m) hi level c (tW rows) (tX rows) (tDy rows) with hN
  set wt := Triple.wTreat (tSg rows) c N (tW rows) with hwt
  set wc := Triple.wControl (estOf m) (tSg rows) c N (tW rows) with hwc
  have eT : ∀ i : Triple.Sub (tSg rows) c, wT m level (ps c) (toP rows[i.1]) = wt i := wTreat_eq h hc
  have eC : ∀ i : Triple.Sub (tSg rows) c, wC m level (ps c) (toP rows[i.1]) = wc i := wControl_eq h hc
  have eR : ∀ i : Triple.Sub (tSg rows) c, (toP rows[i.1]).dy - outM m (β c) (toP rows[i.1]).x = tDy rows i.1 - N.out i := res_eq h hc
  have hT0 : 0 ≤ DR.mean wt := mean_nonneg' fun i => eT i ▸ wT_nonneg hw i
  have hC0 : 0 ≤ DR.mean wc := mean_nonneg' fun i => eC i ▸ wC_nonneg hw hp i
  unfold Triple.compDid at hok
  rw [← hwt, ← hwc] at hok
  split_ifs at hok with k1 k2
  have hT : 0 < DR.mean wt := lt_of_le_of_ne hT0 (Ne.symm k1)
  have hC : 0 < DR.mean wc := lt_of_le_of_ne hC0 (Ne.symm k2)
  simp only [Except.ok.injEq, Prod.mk.injEq] at hok
  obtain ⟨rfl, rfl⟩ := hok
  have hne : compPart c rows ≠ [] := by
    intro e
    have : Fintype.card (Triple.Sub (tSg rows) c) = 0 := by
      rw [card_sub]; simpa [compPart] using e
    unfold DR.mean at hT
    rw [this] at hT
    simp at hT
  have sT := mean_sub rows c (wT m level (ps c)) _ eT
  have sC := mean_sub rows c (wC m level (ps c)) _ eC
  have sRT := mean_sub rows c (fun r => wT m level (ps c) r * (r.dy - outM m (β c) r.x)) (fun i => wt i * (tDy rows i.1 - N.out i))
    (fun i => by rw [eT, eR])
  have sRC := mean_sub rows c (fun r => wC m level (ps c) r * (r.dy - outM m (β c) r.x)) (fun i => wc i * (tDy rows i.1 - N.out i))
    (fun i => by rw [eC, eR])
  have sTX : ∀ k, ((compPart c rows).map fun r => wT m level (ps c) r * r.x k).sum / ((compPart c rows).length : K) =
      DR.mean fun i : Triple.Sub (tSg rows) c => wt i * tX rows i.1 k := fun k => mean_sub rows c _ _ fun i => by rw [eT]; rfl
  have sCX : ∀ k, ((compPart c rows).map fun r => wC m level (ps c) r * r.x k).sum / ((compPart c rows).length : K) =
      DR.mean fun i : Triple.Sub (tSg rows) c => wc i * tX rows i.1 k := fun k => mean_sub rows c _ _ fun i => by rw [eC]; rfl
  have sCRX : ∀ k, ((compPart c rows).map fun r => wC m level (ps c) r * (r.dy - outM m (β c) r.x) * r.x k).sum /
      ((compPart c rows).length : K) = DR.mean fun i : Triple.Sub (tSg rows) c => wc i * (tDy rows i.1 - N.out i) * tX rows i.1 k :=
    fun k => mean_sub rows c _ _ fun i => by rw [eC, eR]; rfl
  have sG : (fun a b => ((compPart c rows).map fun r => (r.x a * ((if r.d then 0 else 1) * r.w)) * r.x b).sum /
      ((compPart c rows).length : K)) = Triple.compGram (tSg rows) c (tW rows) (tX rows) := by
    funext a b
    refine mean_sub rows c _ _ fun i => ?_
    rw [paComp_num hc4]
    show rows[i.1].x a * (_ * rows[i.1].w) * rows[i.1].x b = rows[i.1].w * _ * rows[i.1].x a * rows[i.1].x b
    ring
  have sI : m ≠ .reg → (fun a b => ((compPart c rows).map fun r => (r.x a * (r.w * psM m (ps c) r.x * (1 - psM m (ps c) r.x))) * r.x b).sum) =
      fun a b => ∑ i : Triple.Sub (tSg rows) c, rows[i.1].w * ps c rows[i.1].x * (1 - ps c rows[i.1].x) * rows[i.1].x a * rows[i.1].x b := by
    intro hm
    funext a b
    unfold compPart
    rw [List.map_map, ← sum_sub rows c]
    refine Finset.sum_congr rfl fun i _ => ?_
    simp only [Function.comp, psM, if_neg hm, toP]
    ring
  have hlen : ((compPart c rows).length : K) = (Fintype.card (Triple.Sub (tSg rows) c) : K) := by
    rw [card_sub]; simp [compPart]
  have hH : m ≠ .reg → N.H = _ := fun hm => nuis_H h hm hc
  unfold compGlobal cellGlobal
  rw [agg_eq, flatten_compPart, hrows, partStats]
  simp only [if_neg hne, finalize, Option.bind_some, List.length_eq_zero_iff, Option.some.injEq, exists_eq_left']
  simp only [sT, sC, sRT, sRC, if_pos hT, if_pos hC, gt_iff_lt, sG]
  refine ⟨rfl, fun i => ?_⟩
  unfold compRowIF Triple.scatter
  by_cases hi' : tSg rows i = 4 ∨ tSg rows i = c
  swap
  · rw [if_neg (by rw [sub_iff]; exact hi'), dif_neg hi']
  rw [if_pos ((sub_iff rows c i).2 hi'), dif_pos hi']
  set j : Triple.Sub (tSg rows) c := ⟨i, hi'⟩ with hj
  have tT : wT m level (ps c) (toP rows[i]) = wt j := eT j
  have tC : wC m level (ps c) (toP rows[i]) = wc j := eC j
  have tR : (toP rows[i]).dy - outM m (β c) (toP rows[i]).x = tDy rows j.1 - N.out j := eR j
  unfold rowIF Triple.compIF
  simp only [tT, tC, tR, ← hwt, ← hwc]
  have m2 : (fun k => (((compPart c rows).map fun r => wC m level (ps c) r * (r.dy - outM m (β c) r.x) * r.x k).sum -
        (DR.mean fun i => wc i * (tDy rows i.1 - N.out i)) / DR.mean wc *
        ((compPart c rows).map fun r => wC m level (ps c) r * r.x k).sum) / ((compPart c rows).length : K)) =
      fun k => DR.mean fun j : Triple.Sub (tSg rows) c => (wc j * (tDy rows j.1 - N.out j -
        (DR.mean fun i => wc i * (tDy rows i.1 - N.out i)) / DR.mean wc)) * tX rows j.1 k := by
    funext k
    rw [sub_div, sCRX, mul_div_assoc, sCX]
    unfold DR.mean
    rw [mul_div_assoc', ← sub_div, Finset.mul_sum, ← Finset.sum_sub_distrib]
    congr 1
    exact Finset.sum_congr rfl fun j _ => by ring
  have dot1 : ∀ (e : K) (M : κ → κ → K) (v : κ → K), (∑ k, e * tX rows i k * mulV M v k) = DR.dot (fun k => ∑ l, e * tX rows i l * M l k) v := by
    intro e M v
    unfold DR.dot mulV
    simp only [Finset.mul_sum, Finset.sum_mul]
    rw [Finset.sum_comm]
    exact Finset.sum_congr rfl fun a _ => Finset.sum_congr rfl fun b _ => by ring
  have eO : ∀ k, ((if (toP rows[i]).d then (0 : K) else 1) * (toP rows[i]).w * (tDy rows j.1 - N.out j)) * (toP rows[i]).x k =
      (tW rows i * DR.ind (Triple.paComp (tSg rows) c) j * (tDy rows j.1 - N.out j)) * tX rows i k := by
    intro k
    rw [paComp_num hc4]
    show _ * rows[i].w * _ * rows[i].x k = rows[i].w * _ * _ * rows[i].x k
    ring
  have eS : ∀ k, ((toP rows[i]).w * (dnum (toP rows[i]).d - psM m (ps c) (toP rows[i]).x)) * (toP rows[i]).x k =
      (tW rows i * (DR.ind (Triple.pa4 (tSg rows) c) j - N.ps j)) * tX rows i k := by
    intro k
    rw [pa_num, hN, nuis_ps h hc]
    rfl
  simp only [eO, eS, m2, sTX, sCX, h.inv_eq]
  have hjv : j.1 = i := rfl
  cases m
  · simp only [estOf, reduceCtorEq, if_false, dot1, hjv]
    have := hH (by decide)
    rw [this, sI (by decide), hlen]
  · simp only [estOf, reduceCtorEq, if_false, if_true, dot1, hjv]
  · simp only [estOf, reduceCtorEq, if_false, if_true, dot1, hjv]
    have := hH (by decide)
    rw [this, sI (by decide), hlen]

end One

theorem compWeight_eq (c : ℕ) (parts : List (List (TRow κ K))) (rows : List (TRow κ K)) (hrows : parts.flatten = rows) :
    compWeight c parts = (Triple.ratio (tSg rows) c : K) := by
  unfold compWeight Triple.ratio
  have h1 : (compPart c rows).length = (rows.filter (inComp c)).length := by simp [compPart]
  have h2 : ((parts.map List.length).sum : K) = (rows.length : K) := by rw [← hrows, List.length_flatten]
  rw [nSub_eq, hrows, card_sub, Fintype.card_fin, h1]
  simp only [Nat.cast_list_sum, List.map_map] at h2 ⊢
  rw [← h2]

/-- C178: for every partitioning of the units of a panel triple-difference cell and every method, whenever the single-machine estimator
returns, the distributed computation returns the same estimate and, unit by unit, the same influence values. -/
theorem C178_cell (m : Method) (inv : (κ → κ → K) → κ → κ → K) (hi level : K) (ps : ℕ → (κ → K) → K) (β : ℕ → κ → K)
    (parts : List (List (TRow κ K))) (rows : List (TRow κ K)) (hrows : parts.flatten = rows) (F : Triple.Fits (tSg rows) κ K)
    (hF : SameFits m inv hi ps β rows F) (hw : ∀ r ∈ rows, 0 ≤ r.w)
    (hp : m ≠ .reg → ∀ c, ∀ r ∈ rows, 0 ≤ ps c r.x ∧ ps c r.x < 1) (a : K) (f : Fin rows.length → K)
    (hok : Triple.allDid F (estOf m) hi level (tW rows) (tX rows) (tDy rows) = .ok (a, f)) :
    dddDist m inv level ps β parts = some (a, List.ofFn fun i : Fin rows.length => (rows[i].id, f i)) := by
  unfold Triple.allDid at hok
  rcases h3 : Triple.compDid F.inv (estOf m) (tSg rows) 3 (Triple.nuis F (estOf m) hi level 3 (tW rows) (tX rows) (tDy rows)) (tW rows)
    (tX rows) (tDy rows) with e | r3
  · rw [h3] at hok; cases hok
  rcases h2 : Triple.compDid F.inv (estOf m) (tSg rows) 2 (Triple.nuis F (estOf m) hi level 2 (tW rows) (tX rows) (tDy rows)) (tW rows)
    (tX rows) (tDy rows) with e | r2
  · rw [h3, h2] at hok; cases hok
  rcases h1 : Triple.compDid F.inv (estOf m) (tSg rows) 1 (Triple.nuis F (estOf m) hi level 1 (tW rows) (tX rows) (tDy rows)) (tW rows)
    (tX rows) (tDy rows) with e | r1
  · rw [h3, h2, h1] at hok; cases hok
  rw [h3, h2, h1] at hok
  have hok' : Triple.combine3 (tSg rows) r3 r2 r1 = (a, f) := by injection hok
  obtain ⟨g3, e3, a3, f3⟩ := comp_eq hF (c := 3) (by simp) hw hp parts hrows h3
  obtain ⟨g2, e2, a2, f2⟩ := comp_eq hF (c := 2) (by simp) hw hp parts hrows h2
  obtain ⟨g1, e1, a1, f1⟩ := comp_eq hF (c := 1) (by simp) hw hp parts hrows h1
  unfold Triple.combine3 at hok'
  simp only [Prod.mk.injEq] at hok'
  obtain ⟨rfl, rfl⟩ := hok'
  unfold dddDist
  rw [e3, e2, e1]
  simp only [Option.bind_some, Option.map_some, Option.some.injEq, Prod.mk.injEq]
  refine ⟨by rw [a3, a2, a1], ?_⟩
  have hfm : ∀ (ph : TRow κ K → ℤ × K), (parts.flatMap fun p => p.map ph) = parts.flatten.map ph := by
    intro ph
    rw [List.map_flatten]
    rfl
  rw [hfm, hrows]
  apply List.ext_getElem (by simp)
  intro i k1 k2
  simp only [List.getElem_map, List.getElem_ofFn]
  have hlt : i < rows.length := by simpa using k1
  have q3 := f3 ⟨i, hlt⟩
  have q2 := f2 ⟨i, hlt⟩
  have q1 := f1 ⟨i, hlt⟩
  simp only [Fin.getElem_fin] at q3 q2 q1
  refine Prod.ext rfl ?_
  show compWeight 3 parts * _ + compWeight 2 parts * _ + -compWeight 1 parts * _ = _
  rw [q3, q2, q1]
  simp only [compWeight_eq 3 parts rows hrows, compWeight_eq 2 parts rows hrows, compWeight_eq 1 parts rows hrows]
  ring

/-- C178: the published estimate `ddd_panel` without weights, which is what the single-machine multi-period code calls. -/
theorem C178_ddd_panel (m : Method) (inv : (κ → κ → K) → κ → κ → K) (hi level : K) (ps : ℕ → (κ → K) → K) (β : ℕ → κ → K)
    (parts : List (List (TRow κ K))) (rows : List (TRow κ K)) (hrows : parts.flatten = rows) (F : Triple.Fits (tSg rows) κ K)
    (hF : SameFits m inv hi ps β rows F) (hw : ∀ r ∈ rows, r.w = 1)
    (hp : m ≠ .reg → ∀ c, ∀ r ∈ rows, 0 ≤ ps c r.x ∧ ps c r.x < 1) (a : K) (f : Fin rows.length → K)
    (hok : Triple.dddPanel F (estOf m) hi level (fun i => rows[i].y1) (fun i => rows[i].y0) (tX rows) (fun _ => 1) = .ok (a, f)) :
    dddDist m inv level ps β parts = some (a, List.ofFn fun i : Fin rows.length => (rows[i].id, f i)) := by
  refine C178_cell m inv hi level ps β parts rows hrows F hF (fun r hr => by rw [hw r hr]; exact zero_le_one) hp a f ?_
  unfold Triple.dddPanel at hok
  by_cases k1 : ∃ i : Fin rows.length, ((fun _ => 1 : Fin rows.length → K) i < 0)
  · rw [if_pos k1] at hok; cases hok
  rw [if_neg k1] at hok
  by_cases k2 : ∃ i, tSg rows i ∉ [1, 2, 3, 4]
  · rw [if_pos k2] at hok; cases hok
  rw [if_neg k2] at hok
  by_cases k3 : ¬ ∃ i, tSg rows i = 4
  · rw [if_pos k3] at hok; cases hok
  rw [if_neg k3] at hok
  have hn : (Fintype.card (Fin rows.length) : K) ≠ 0 := by
    obtain ⟨i, -⟩ := not_not.1 k3
    have : 0 < rows.length := i.pos
    rw [Fintype.card_fin]
    exact_mod_cast this.ne'
  have e : DR.normalize (fun _ : Fin rows.length => (1 : K)) = tW rows := by
    funext i
    unfold DR.normalize DR.mean tW
    rw [hw rows[i] (List.getElem_mem _)]
    simp only [Finset.sum_const, Finset.card_univ, nsmul_eq_mul, mul_one]
    rw [div_self hn, div_one]
  rw [e] at hok
  exact hok

/-- Fits that agree exist for every choice of scores below the cap and of coefficients, so the hypothesis is not a restriction on the data. -/
theorem C178_fits (m : Method) (inv : (κ → κ → K) → κ → κ → K) (hi : K) (ps : ℕ → (κ → K) → K) (β : ℕ → κ → K)
    (rows : List (TRow κ K)) (h : ∀ c, ∀ r ∈ rows, ps c r.x ≤ hi) : ∃ F, SameFits m inv hi ps β rows F :=
  ⟨{ ols := fun c _ _ _ _ => β c
     logit := fun c _ _ _ i => ps c rows[i.1].x
     hess := fun c _ a b => inv (fun a b => ∑ i : Triple.Sub (tSg rows) c,
       rows[i.1].w * ps c rows[i.1].x * (1 - ps c rows[i.1].x) * rows[i.1].x a * rows[i.1].x b) a b * (Fintype.card (Triple.Sub (tSg rows) c) : K)
     inv := inv },
   ⟨rfl, fun _ c _ i => min_eq_left (h c _ (List.getElem_mem _)), fun _ c _ => rfl, fun _ c _ => rfl⟩⟩

/-- C178: the subgroup codes are the documented ones, exactly when eligibility is coded 0/1. -/
theorem C178_codes (treat : Bool) (part : ℤ) (hp : part = 0 ∨ part = 1) :
    sgCode treat part = if treat then (if part = 1 then 4 else 3) else if part = 1 then 2 else 1 := by
  rcases hp with rfl | rfl <;> cases treat <;> rfl

/-- Eligibility coded otherwise falls outside the four subgroups or into the wrong one: coded 2, an untreated unit gets 3. -/
theorem C178_codes_violated : sgCode false 2 = 3 ∧ sgCode true 2 = 5 := by decide

/-- C178 violated: with `ipw`, if trimming removes every comparison unit (scores at or above the level), the single-machine estimator
raises whatever the fits return, and the distributed one reports the treated units' own before-after change as the triple difference. -/
theorem C178_trimmed_violated (inv : (κ → κ → K) → κ → κ → K) (hi level : K) (ps : ℕ → (κ → K) → K) (β : ℕ → κ → K)
    (parts : List (List (TRow κ K))) (rows : List (TRow κ K)) (hrows : parts.flatten = rows) (F : Triple.Fits (tSg rows) κ K)
    (hF : SameFits .ipw inv hi ps β rows F) (hpos : ∀ r ∈ rows, 0 < r.w) (h4 : ∃ r ∈ rows, r.sg = 4)
    (htrim : ∀ c, ∀ r ∈ rows, r.sg ≠ 4 → level ≤ ps c r.x) :
    Triple.allDid F .ipw hi level (tW rows) (tX rows) (tDy rows) = .error .noControls ∧
    ∃ l, dddDist .ipw inv level ps β parts = some
      (((rows.filter fun r => decide (r.sg = 4)).map fun r => r.w * (r.y1 - r.y0)).sum / ((rows.filter fun r => decide (r.sg = 4)).map TRow.w).sum, l) := by
  have key : ∀ c, ∀ i : Triple.Sub (tSg rows) c, wC .ipw level (ps c) (toP rows[i.1]) = 0 := by
    intro c i
    have htr := htrim c _ (List.getElem_mem i.1.2)
    revert htr
    show (rows[i.1].sg ≠ 4 → level ≤ ps c rows[i.1].x) → _
    generalize rows[i.1] = r
    intro htr
    unfold wC keepM toP
    simp only [reduceCtorEq, if_false]
    by_cases hd : r.sg = 4
    · simp [hd, dnum]
    · have h3 : ¬ ps c r.x < level := not_lt.2 (htr hd)
      simp [hd, h3]
  set S := ((rows.filter fun r => decide (r.sg = 4)).map TRow.w).sum with hS
  set D := ((rows.filter fun r => decide (r.sg = 4)).map fun r => r.w * (r.y1 - r.y0)).sum with hD
  have hSpos : 0 < S := by
    obtain ⟨r, hr, hr4⟩ := h4
    refine List.sum_pos _ (fun x hx => ?_) ?_
    · obtain ⟨r', hr', rfl⟩ := List.mem_map.1 hx
      exact hpos r' (List.mem_filter.1 hr').1
    · intro e
      have := List.map_eq_nil_iff.1 e
      have hm : r ∈ rows.filter fun r => decide (r.sg = 4) := List.mem_filter.2 ⟨hr, by simpa using hr4⟩
      rw [this] at hm
      cases hm
  have sumT : ∀ c, ∀ v : PRow κ K → K, ((compPart c rows).map fun r => wT .ipw level (ps c) r * v r).sum =
      ((rows.filter fun r => decide (r.sg = 4)).map fun r => r.w * v (toP r)).sum := by
    intro c v
    unfold compPart
    rw [List.map_map, sum_filter_fin, sum_filter_fin]
    refine Finset.sum_congr rfl fun i _ => ?_
    show (if inComp c rows[i] then wT .ipw level (ps c) (toP rows[i]) * v (toP rows[i]) else 0) = _
    generalize rows[i] = r
    by_cases hd : r.sg = 4
    · simp [hd, inComp, wT, keepM, toP, dnum]
    · simp [hd, inComp, wT, keepM, toP, dnum]
  have sT : ∀ c, ((compPart c rows).map (wT .ipw level (ps c))).sum = S := by
    intro c
    have := sumT c fun _ => 1
    simp only [mul_one] at this
    exact this
  have sD : ∀ c, ((compPart c rows).map fun r => wT .ipw level (ps c) r * (r.dy - outM .ipw (β c) r.x)).sum = D := by
    intro c
    rw [sumT c fun r => r.dy - outM .ipw (β c) r.x, hD]
    simp [outM, PRow.dy, toP]
  have hne : ∀ c, compPart c rows ≠ [] := by
    intro c e
    have := sT c
    rw [e] at this
    simp at this
    exact hSpos.ne this
  have hlen : ∀ c, (0 : K) < ((compPart c rows).length : K) := fun c => by
    exact_mod_cast List.length_pos_of_ne_nil (hne c)
  constructor
  · have h3 : Triple.compDid F.inv .ipw (tSg rows) 3 (Triple.nuis F .ipw hi level 3 (tW rows) (tX rows) (tDy rows)) (tW rows)
        (tX rows) (tDy rows) = .error .noControls := by
      have e1 := mean_sub rows 3 (wT .ipw level (ps 3)) _ (wTreat_eq (level := level) hF (c := 3) (by simp))
      have e2 := mean_sub rows 3 (wC .ipw level (ps 3)) _ (wControl_eq (level := level) hF (c := 3) (by simp))
      have e3 := mean_sub rows 3 (wC .ipw level (ps 3)) (fun _ => 0) (key 3)
      rw [e2] at e3
      rw [sT 3] at e1
      unfold Triple.compDid
      simp only [estOf] at e1 e2 e3
      rw [if_neg, if_pos]
      · rw [e3]; simp [DR.mean]
      · rw [← e1]; exact (div_pos hSpos (hlen 3)).ne'
    unfold Triple.allDid
    rw [h3]
    rfl
  · have hg : ∀ c, ∃ g, compGlobal .ipw inv level ps β parts c = some g ∧ g.att = D / S := by
      intro c
      have e3 := mean_sub rows c (wC .ipw level (ps c)) (fun _ => 0) (key c)
      have e0 : (DR.mean fun _ : Triple.Sub (tSg rows) c => (0 : K)) = 0 := by simp [DR.mean]
      unfold compGlobal cellGlobal
      rw [agg_eq, flatten_compPart, hrows, partStats]
      simp only [if_neg (hne c), finalize, Option.bind_some, List.length_eq_zero_iff, Option.some.injEq, exists_eq_left', sT, sD, e3, e0]
      rw [if_pos (div_pos hSpos (hlen c)), if_neg (lt_irrefl _)]
      have := (hlen c).ne'
      have := hSpos.ne'
      field_simp
      ring
    obtain ⟨g3, e3, a3⟩ := hg 3
    obtain ⟨g2, e2, a2⟩ := hg 2
    obtain ⟨g1, e1, a1⟩ := hg 1
    unfold dddDist
    rw [e3, e2, e1]
    simp only [Option.bind_some, Option.map_some, Option.some.injEq, Prod.mk.injEq, a3, a2, a1, exists_and_left, exists_eq', and_true]
    ring

/-! ## Non-vacuity -/

/-- Two partitions, one of them with an empty comparison. -/
def dddParts : List (List (TRow (Fin 1) ℚ)) :=
  [[⟨1, fun _ => 1, 4, 9, 1, 1⟩, ⟨2, fun _ => 1, 3, 4, 1, 1⟩], [], [⟨3, fun _ => 1, 2, 3, 1, 1⟩, ⟨4, fun _ => 1, 1, 2, 1, 1⟩, ⟨5, fun _ => 1, 1, 4, 1, 1⟩]]

example : ∃ F, SameFits .dr (fun M a b => (M a b)⁻¹) 1 (fun _ _ => 1 / 2) (fun _ _ => 1) dddParts.flatten F :=
  C178_fits _ _ _ _ _ _ fun _ _ _ => by norm_num

example : ∀ F, SameFits .dr (fun M a b => (M a b)⁻¹) 1 (fun _ _ => 1 / 2) (fun _ _ => 1) dddParts.flatten F →
    ∃ r, Triple.allDid F .dr 1 1 (tW dddParts.flatten) (tX dddParts.flatten) (tDy dddParts.flatten) = .ok r := by
  intro F hF
  have hT : ∀ c ∈ [1, 2, 3], Triple.compDid F.inv .dr (tSg dddParts.flatten) c
      (Triple.nuis F .dr 1 1 c (tW dddParts.flatten) (tX dddParts.flatten) (tDy dddParts.flatten)) (tW dddParts.flatten)
      (tX dddParts.flatten) (tDy dddParts.flatten) = .ok (Triple.compAtt .dr (tSg dddParts.flatten) c
        (Triple.nuis F .dr 1 1 c (tW dddParts.flatten) (tX dddParts.flatten) (tDy dddParts.flatten)) (tW dddParts.flatten) (tDy dddParts.flatten),
        Triple.scatter (tSg dddParts.flatten) c (Triple.compIF F.inv .dr (tSg dddParts.flatten) c
          (Triple.nuis F .dr 1 1 c (tW dddParts.flatten) (tX dddParts.flatten) (tDy dddParts.flatten)) (tW dddParts.flatten)
          (tX dddParts.flatten) (tDy dddParts.flatten))) := by
    intro c hc
    have e1 := mean_sub dddParts.flatten c (wT .dr 1 fun _ => 1 / 2) _ (wTreat_eq (level := 1) hF hc)
    have e2 := mean_sub dddParts.flatten c (wC .dr 1 fun _ => 1 / 2) _ (wControl_eq (level := 1) hF hc)
    simp only [estOf] at e1 e2
    unfold Triple.compDid
    rw [if_neg, if_neg]
    · rw [← e2]
      rcases (by simpa using hc : c = 1 ∨ c = 2 ∨ c = 3) with rfl | rfl | rfl <;> decide +kernel
    · rw [← e1]
      rcases (by simpa using hc : c = 1 ∨ c = 2 ∨ c = 3) with rfl | rfl | rfl <;> decide +kernel
  unfold Triple.allDid
  rw [hT 3 (by simp), hT 2 (by simp), hT 1 (by simp)]
  exact ⟨_, rfl⟩

end Verif.Dist
