import Verif.Dist.CellRC
import Verif.Dist.Ddd
import Mathlib.Data.List.NodupEquivFin
import Mathlib.Order.Fin.Basic

/-!
# C179: distributed triple-difference cells on repeated cross-sections

Model of `distributed/_ddd_partition.py:399-690,778-812` and of `streaming_ddd_rc_cell_single_control`
(`dask/_ddd_streaming.py:560-672`, the same steps in `spark/_ddd_streaming.py`).
-/

set_option linter.unusedSectionVars false
set_option linter.unusedSimpArgs false

namespace Verif.Dist

variable {κ K : Type*} [Fintype κ] [Field K] [LinearOrder K] [IsStrictOrderedRing K]

/-! ## Model -/

/-- One observation of a repeated cross-section cell, `_ddd_partition.py:424-445`. -/
structure TCRow (κ K : Type*) where
  id : ℤ
  x : κ → K
  sg : ℕ
  post : Bool
  y : K
  w : K

/-- `(sg == 4) | (sg == comp_sg)`, `_ddd_partition.py:483,528,658`. -/
def inCompC (c : ℕ) (r : TCRow κ K) : Bool := decide (r.sg = 4) || decide (r.sg = c)

/-- `sub_part` with `D = pa4`, `_ddd_partition.py:665-674`. -/
def toC (r : TCRow κ K) : CRow κ K := ⟨r.x, decide (r.sg = 4), r.post, r.y, r.w⟩

/-- The observations of one partition that belong to the comparison. -/
def compPartC (c : ℕ) (p : List (TCRow κ K)) : List (CRow κ K) := (p.filter (inCompC c)).map toC

/-- Statistics of one comparison for `dr` and `ipw`, `_ddd_partition.py:522-629,778-812`, `dask/_ddd_streaming.py:610-622`: on the comparison's
observations these are the statistics of `_partition_did_rc_global_stats`, finalised by the same formulas. -/
def compGlobalRC (m : Method) (inv : (κ → κ → K) → κ → κ → K) (level : K) (ps : ℕ → (κ → K) → K) (β : ℕ → Arm → κ → K)
    (parts : List (List (TCRow κ K))) (c : ℕ) : Option (GlobalRC κ K) :=
  finalizeRC m inv (((parts.map (compPartC c)).map (partStatsRC m level (ps c) (β c))).foldl optAdd none)

/-- `n_cell / n_c if n_c > 0 else 0.0`, `dask/_ddd_streaming.py:642-644`. -/
def compWeightC (c : ℕ) (parts : List (List (TCRow κ K))) : K :=
  if 0 < (parts.map fun p => (compPartC c p).length).sum then
    ((parts.map List.length).sum : K) / ((parts.map fun p => (compPartC c p).length).sum : ℕ) else 0

/-- `inf_full` of one comparison, `_ddd_partition.py:657-688`. -/
def compRowIFRC (m : Method) (level : K) (ps : ℕ → (κ → K) → K) (β : ℕ → Arm → κ → K) (g : GlobalRC κ K) (c : ℕ) (r : TCRow κ K) : K :=
  if inCompC c r then rowIFRC m level (ps c) (β c) g (toC r) else 0

/-- One cell for `dr` and `ipw`, `dask/_ddd_streaming.py:576-672` before scaling. -/
def dddDistRC (m : Method) (inv : (κ → κ → K) → κ → κ → K) (level : K) (ps : ℕ → (κ → K) → K) (β : ℕ → Arm → κ → K)
    (parts : List (List (TCRow κ K))) : Option (K × List (ℤ × K)) :=
  (compGlobalRC m inv level ps β parts 3).bind fun g3 =>
    (compGlobalRC m inv level ps β parts 2).bind fun g2 =>
      (compGlobalRC m inv level ps β parts 1).map fun g1 =>
        (g3.drAtt + g2.drAtt - g1.drAtt, parts.flatMap fun p => p.map fun r =>
          (r.id, compWeightC 3 parts * compRowIFRC m level ps β g3 3 r + compWeightC 2 parts * compRowIFRC m level ps β g2 2 r +
            -compWeightC 1 parts * compRowIFRC m level ps β g1 1 r))

/-! ## The cell as seen by the single-machine estimator -/

def cSg (rows : List (TCRow κ K)) (i : Fin rows.length) : ℕ := rows[i].sg
def cX (rows : List (TCRow κ K)) (i : Fin rows.length) : κ → K := rows[i].x
def cY (rows : List (TCRow κ K)) (i : Fin rows.length) : K := rows[i].y
def cW (rows : List (TCRow κ K)) (i : Fin rows.length) : K := rows[i].w
def cPost (rows : List (TCRow κ K)) (i : Fin rows.length) : Bool := rows[i].post

/-- The single-machine fits return the coefficients of the distributed fits. -/
structure SameFitsRC (m : Method) (inv : (κ → κ → K) → κ → κ → K) (hi : K) (ps : ℕ → (κ → K) → K) (β : ℕ → Arm → κ → K)
    (rows : List (TCRow κ K)) (F : Triple.FitsRC (cSg rows) κ K) : Prop where
  inv_eq : F.inv = inv
  score : m ≠ .reg → ∀ c ∈ [1, 2, 3], ∀ i : Triple.Sub (cSg rows) c,
    min (F.logit c (Triple.onSub (cSg rows) c (cW rows)) (Triple.pa4 (cSg rows) c) (Triple.onSub (cSg rows) c (cX rows)) i) hi =
      ps c rows[i.1].x
  coef : m ≠ .ipw → ∀ c ∈ [1, 2, 3], ∀ pre treat, F.ols c (Triple.onSub (cSg rows) c (cW rows))
      (DR.cellSel (Triple.pa4 (cSg rows) c) (Triple.onSub (cSg rows) c (cPost rows)) pre treat) (Triple.onSub (cSg rows) c (cX rows))
      (Triple.onSub (cSg rows) c (cY rows)) = β c (match treat, pre with
        | false, true => .cpre
        | false, false => .cpost
        | true, true => .tpre
        | true, false => .tpost)
  info : m ≠ .reg → ∀ c ∈ [1, 2, 3], F.hess c (fun i => ps c rows[i.1].x) = fun a b =>
    inv (fun a b => ∑ i : Triple.Sub (cSg rows) c, rows[i.1].w * ps c rows[i.1].x * (1 - ps c rows[i.1].x) * rows[i.1].x a * rows[i.1].x b) a b *
      (Fintype.card (Triple.Sub (cSg rows) c) : K)

/-! ## Reindexing -/

theorem filter_equiv {R : Type*} (rows : List R) (q : R → Bool) :
    ∃ e : Fin (rows.filter q).length ≃ {i : Fin rows.length // q rows[i] = true}, ∀ k, (rows.filter q)[k] = rows[(e k).1] := by
  obtain ⟨f, hf⟩ := List.sublist_iff_exists_fin_orderEmbedding_get_eq.1 (List.filter_sublist (l := rows) (p := q))
  have hq : ∀ k, q rows[f k] = true := by
    intro k
    have h1 := hf k
    have h2 : (rows.filter q).get k ∈ rows.filter q := List.get_mem _ _
    rw [h1] at h2
    exact (List.mem_filter.1 h2).2
  let g : Fin (rows.filter q).length → {i : Fin rows.length // q rows[i] = true} := fun k => ⟨f k, hq k⟩
  have hinj : Function.Injective g := fun a b hab => f.injective (congrArg Subtype.val hab)
  have hcard : Fintype.card (Fin (rows.filter q).length) = Fintype.card {i : Fin rows.length // q rows[i] = true} := by
    rw [Fintype.card_fin, Fintype.card_subtype]
    have h : ((rows.filter q).map fun _ => (1 : ℚ)).sum = ∑ i : Fin rows.length, if q rows[i] then (1 : ℚ) else 0 := sum_filter_fin rows q _
    rw [← Finset.sum_filter] at h
    simp at h
    exact_mod_cast h
  have hbij : Function.Bijective g := (Fintype.bijective_iff_injective_and_card g).2 ⟨hinj, hcard⟩
  exact ⟨Equiv.ofBijective g hbij, fun k => hf k⟩

theorem compC_equiv (rows : List (TCRow κ K)) (c : ℕ) (crows : List (CRow κ K)) (hcr : crows = compPartC c rows) :
    ∃ e : Fin crows.length ≃ Triple.Sub (cSg rows) c, ∀ k, crows[k] = toC rows[(e k).1] := by
  subst hcr
  obtain ⟨e, he⟩ := filter_equiv rows (inCompC c)
  have hl : (compPartC c rows).length = (rows.filter (inCompC c)).length := by simp [compPartC]
  have hs : ∀ i : Fin rows.length, inCompC c rows[i] = true ↔ (cSg rows i = 4 ∨ cSg rows i = c) := by
    intro i; simp [inCompC, cSg]
  refine ⟨((finCongr hl).trans e).trans (Equiv.subtypeEquivRight hs), fun k => ?_⟩
  have := he (finCongr hl k)
  show _ = toC rows[(e (finCongr hl k)).1]
  rw [← this]
  exact List.getElem_map toC

section Reindex
variable {σ τ : Type*} [Fintype σ] [Fintype τ] (e : σ ≃ τ)

theorem mean_equiv (g : τ → K) : DR.mean g = DR.mean fun i => g (e i) := by
  unfold DR.mean
  rw [Fintype.card_congr e, Equiv.sum_comp e g]

theorem drRC_equiv (d tr post : τ → Bool) (ps a b a' b' y w : τ → K) : DR.drRC d tr post ps a b a' b' y w =
    DR.drRC (fun i => d (e i)) (fun i => tr (e i)) (fun i => post (e i)) (fun i => ps (e i)) (fun i => a (e i)) (fun i => b (e i))
      (fun i => a' (e i)) (fun i => b' (e i)) (fun i => y (e i)) (fun i => w (e i)) := by
  unfold DR.drRC DR.tradRC DR.hmean
  simp only [mean_equiv e]
  rfl

theorem ipwRC_equiv (d tr post : τ → Bool) (ps y w : τ → K) : DR.ipwRC d tr post ps y w =
    DR.ipwRC (fun i => d (e i)) (fun i => tr (e i)) (fun i => post (e i)) (fun i => ps (e i)) (fun i => y (e i)) (fun i => w (e i)) := by
  unfold DR.ipwRC DR.hmean
  simp only [mean_equiv e]
  rfl

theorem drRCIF_equiv (d tr post : τ → Bool) (ps a b a' b' y w : τ → K) (x : τ → κ → K) (M1 M2 M3 M4 H : κ → κ → K) (i : σ) :
    DR.drRCIF d tr post ps a b a' b' y w x M1 M2 M3 M4 H (e i) =
    DR.drRCIF (fun i => d (e i)) (fun i => tr (e i)) (fun i => post (e i)) (fun i => ps (e i)) (fun i => a (e i)) (fun i => b (e i))
      (fun i => a' (e i)) (fun i => b' (e i)) (fun i => y (e i)) (fun i => w (e i)) (fun i => x (e i)) M1 M2 M3 M4 H i := by
  unfold DR.drRCIF DR.tradRCIF DR.lead DR.hmean
  simp only [DR.xmean, mean_equiv e]
  rfl

theorem ipwRCIF_equiv (d tr post : τ → Bool) (ps y w : τ → K) (x : τ → κ → K) (H : κ → κ → K) (i : σ) :
    DR.ipwRCIF d tr post ps y w x H (e i) =
    DR.ipwRCIF (fun i => d (e i)) (fun i => tr (e i)) (fun i => post (e i)) (fun i => ps (e i)) (fun i => y (e i)) (fun i => w (e i))
      (fun i => x (e i)) H i := by
  unfold DR.ipwRCIF DR.lead DR.hmean
  simp only [mean_equiv e]
  rfl

end Reindex

theorem flatten_compPartC (c : ℕ) (parts : List (List (TCRow κ K))) : (parts.map (compPartC c)).flatten = compPartC c parts.flatten := by
  induction parts with
  | nil => rfl
  | cons p t ih => simp only [List.map_cons, List.flatten_cons, ih]; unfold compPartC; rw [List.filter_append, List.map_append]

section One
variable {m : Method} {inv : (κ → κ → K) → κ → κ → K} {hi level : K} {ps : ℕ → (κ → K) → K} {β : ℕ → Arm → κ → K}
  {rows : List (TCRow κ K)} {F : Triple.FitsRC (cSg rows) κ K}

theorem rcPs_loc (h : SameFitsRC m inv hi ps β rows F) (hm : m ≠ .reg) {c : ℕ} (hc : c ∈ [1, 2, 3]) (i : Triple.Sub (cSg rows) c) :
    Triple.rcPs F (estOf m) hi c (cW rows) (cX rows) i = ps c rows[i.1].x := by
  have hm' : estOf m ≠ .reg := by cases m <;> simp_all [estOf]
  unfold Triple.rcPs
  rw [if_neg hm']
  exact h.score hm c hc i

theorem rcKeep_loc (h : SameFitsRC m inv hi ps β rows F) (hm : m ≠ .reg) (hl : level ≤ hi) {c : ℕ} (hc : c ∈ [1, 2, 3])
    (i : Triple.Sub (cSg rows) c) : Triple.rcKeep F (estOf m) level c (cW rows) (cX rows) i =
      if (toC rows[i.1]).d then true else decide (ps c (toC rows[i.1]).x < level) := by
  have hm' : estOf m ≠ .reg := by cases m <;> simp_all [estOf]
  have hs := h.score hm c hc i
  unfold Triple.rcKeep
  rw [if_neg hm']
  show (if decide (rows[i.1].sg = 4) = true then true else _) = if decide (rows[i.1].sg = 4) = true then true else decide (ps c rows[i.1].x < level)
  congr 1
  rw [← hs, decide_eq_decide, min_lt_iff]
  constructor
  · exact Or.inl
  · rintro (h' | h')
    · exact h'
    · exact absurd h' (not_lt.2 hl)

theorem rcOut_loc (h : SameFitsRC m inv hi ps β rows F) (hm : m ≠ .ipw) {c : ℕ} (hc : c ∈ [1, 2, 3]) (pre treat : Bool)
    (i : Triple.Sub (cSg rows) c) : Triple.rcOut F (estOf m) c (cW rows) (cX rows) (cY rows) (cPost rows) pre treat i =
      eta rows[i.1].x (β c (match treat, pre with
        | false, true => .cpre
        | false, false => .cpost
        | true, true => .tpre
        | true, false => .tpost)) := by
  have hm' : estOf m ≠ .ipw := by cases m <;> simp_all [estOf]
  unfold Triple.rcOut
  rw [if_neg hm', h.coef hm c hc pre treat]
  rfl

/-- One comparison: whenever the single-machine code returns, the distributed code has the same estimate and influence values. -/
theorem compC_eq (h : SameFitsRC m inv hi ps β rows F) (hm : m ≠ .reg) (hl : level ≤ hi) {c : ℕ} (hc : c ∈ [1, 2, 3])
    (hw : ∀ r ∈ rows, 0 ≤ r.w) (hp : ∀ c, ∀ r ∈ rows, 0 ≤ ps c r.x ∧ ps c r.x < 1) (parts : List (List (TCRow κ K)))
    (hrows : parts.flatten = rows) {a : K} {f : Fin rows.length → K}
    (hok : Triple.compDidRC F (estOf m) hi level c (cW rows) (cX rows) (cY rows) (cPost rows) = .ok (a, f)) :
    ∃ g, compGlobalRC m inv level ps β parts c = some g ∧ g.drAtt = a ∧ ∀ i, compRowIFRC m level ps β g c rows[i] = f i := by
  obtain ⟨crows, hcrows⟩ : ∃ l, l = compPartC c rows := ⟨_, rfl⟩
  obtain ⟨e, he⟩ := compC_equiv rows c crows hcrows
  have hm' : estOf m ≠ .reg := by cases m <;> simp_all [estOf]
  have hD : rcD crows = fun k => Triple.pa4 (cSg rows) c (e k) := by funext k; unfold rcD; rw [he k]; rfl
  have hPost : rcPost crows = fun k => Triple.onSub (cSg rows) c (cPost rows) (e k) := by funext k; unfold rcPost; rw [he k]; rfl
  have hX : rcX crows = fun k => Triple.onSub (cSg rows) c (cX rows) (e k) := by funext k; unfold rcX; rw [he k]; rfl
  have hY : rcY crows = fun k => Triple.onSub (cSg rows) c (cY rows) (e k) := by funext k; unfold rcY; rw [he k]; rfl
  have hW : rcW crows = fun k => Triple.onSub (cSg rows) c (cW rows) (e k) := by funext k; unfold rcW; rw [he k]; rfl
  have hPs : rcPs (ps c) crows = fun k => Triple.rcPs F (estOf m) hi c (cW rows) (cX rows) (e k) := by
    funext k; unfold rcPs; rw [he k, rcPs_loc h hm hc]; rfl
  have hTr : rcTr level (ps c) crows = fun k => Triple.rcKeep F (estOf m) level c (cW rows) (cX rows) (e k) := by
    funext k
    rw [rcKeep_loc h hm hl hc, ← he k]
    rfl
  have hpsI : (fun i : Triple.Sub (cSg rows) c => ps c rows[i.1].x) = Triple.rcPs F (estOf m) hi c (cW rows) (cX rows) := by
    funext i; rw [rcPs_loc h hm hc]
  have hlen : (crows.length : K) = (Fintype.card (Triple.Sub (cSg rows) c) : K) := by
    rw [← Fintype.card_congr e, Fintype.card_fin]
  have hH : (fun a b => inv (rcInfo (rcPs (ps c) crows) (rcW crows) (rcX crows)) a b * (crows.length : K)) =
      F.hess c (Triple.rcPs F (estOf m) hi c (cW rows) (cX rows)) := by
    rw [← hpsI, h.info hm c hc, hlen]
    have : rcInfo (rcPs (ps c) crows) (rcW crows) (rcX crows) = fun a b => ∑ i : Triple.Sub (cSg rows) c,
        rows[i.1].w * ps c rows[i.1].x * (1 - ps c rows[i.1].x) * rows[i.1].x a * rows[i.1].x b := by
      funext a b
      unfold rcInfo
      rw [← Equiv.sum_comp e, hPs, hW, hX]
      refine Finset.sum_congr rfl fun k _ => ?_
      simp only [rcPs_loc h hm hc]
      rfl
    rw [this]
  have hM : ∀ arm pre treat, (match treat, pre with
        | false, true => Arm.cpre
        | false, false => .cpost
        | true, true => .tpre
        | true, false => .tpost) = arm →
      inv (rcGram (armSel crows arm) (rcW crows) (rcX crows)) = Triple.rcM F c (cW rows) (cX rows) (cPost rows) pre treat := by
    intro arm pre treat ha
    unfold Triple.rcM
    rw [h.inv_eq]
    congr 1
    funext a b
    unfold rcGram Triple.cellGram
    rw [mean_equiv e]
    congr 1
    funext k
    rw [hW, hX]
    subst ha
    cases pre <;> cases treat <;> simp only [armSel, hD, hPost, Bool.false_eq_true, if_true, if_false] <;> rfl
  -- positivity of the average weights
  have nn : ∀ k i, 0 ≤ locW level (ps c) crows k i := by
    intro k i
    rw [← wRow_eq, he i]
    have hr : rows[(e i).1] ∈ rows := List.getElem_mem _
    have h1 := hw _ hr
    obtain ⟨h2, h3⟩ := hp c _ hr
    have h4 : 0 ≤ keepC level (ps c) (toC rows[(e i).1]) := by unfold keepC; split_ifs <;> simp
    have h5 : ∀ b, (0 : K) ≤ dnum b := by intro b; cases b <;> simp [dnum]
    have h6 : ∀ b, (0 : K) ≤ 1 - dnum b := by intro b; cases b <;> simp [dnum]
    have h7 : (0 : K) ≤ (toC rows[(e i).1]).w := h1
    have h8 : (0 : K) ≤ ps c (toC rows[(e i).1]).x := h2
    have h9 : (0 : K) ≤ 1 - ps c (toC rows[(e i).1]).x := sub_nonneg.2 h3.le
    cases k <;> simp only [wRow]
    · exact mul_nonneg (mul_nonneg (mul_nonneg h4 h7) (h5 _)) (h6 _)
    · exact mul_nonneg (mul_nonneg (mul_nonneg h4 h7) (h5 _)) (h5 _)
    · exact div_nonneg (mul_nonneg (mul_nonneg (mul_nonneg (mul_nonneg h4 h7) h8) (h6 _)) (h6 _)) h9
    · exact div_nonneg (mul_nonneg (mul_nonneg (mul_nonneg (mul_nonneg h4 h7) h8) (h6 _)) (h5 _)) h9
    · exact mul_nonneg (mul_nonneg h4 h7) (h5 _)
    · exact mul_nonneg (mul_nonneg (mul_nonneg h4 h7) (h5 _)) (h5 _)
    · exact mul_nonneg (mul_nonneg (mul_nonneg h4 h7) (h5 _)) (h6 _)
  have le : ∀ k, 0 ≤ DR.mean (locW level (ps c) crows k) := fun k => mean_nonneg' (nn k)
  unfold Triple.compDidRC at hok
  cases hg : Triple.rcGuard (estOf m) (Triple.pa4 (cSg rows) c) (Triple.rcKeep F (estOf m) level c (cW rows) (cX rows))
    (Triple.onSub (cSg rows) c (cPost rows)) (Triple.rcPs F (estOf m) hi c (cW rows) (cX rows)) (Triple.onSub (cSg rows) c (cW rows)) with
  | some x => rw [hg] at hok; cases hok
  | none =>
  rw [hg] at hok
  simp only [Except.ok.injEq, Prod.mk.injEq] at hok
  obtain ⟨rfl, rfl⟩ := hok
  unfold Triple.rcGuard at hg
  split_ifs at hg with k1 k2
  rw [not_or] at k1
  have k3 : ¬ (_ ∨ _) := fun hh => k2 ⟨hm', hh⟩
  rw [not_or] at k3
  have tpre : DR.mean (locW level (ps c) crows .tpre) ≠ 0 := by
    intro hz; apply k1.1; rw [mean_equiv e, ← hz]; simp only [locW, hD, hTr, hW, hPost]; rfl
  have tpost : DR.mean (locW level (ps c) crows .tpost) ≠ 0 := by
    intro hz; apply k1.2; rw [mean_equiv e, ← hz]; simp only [locW, hD, hTr, hW, hPost]; rfl
  have cpre : DR.mean (locW level (ps c) crows .cpre) ≠ 0 := by
    intro hz; apply k3.1; rw [mean_equiv e, ← hz]; simp only [locW, hD, hTr, hW, hPost, hPs]; rfl
  have cpost : DR.mean (locW level (ps c) crows .cpost) ≠ 0 := by
    intro hz; apply k3.2; rw [mean_equiv e, ← hz]; simp only [locW, hD, hTr, hW, hPost, hPs]; rfl
  have hpos : ∀ k, 0 < DR.mean (locW level (ps c) crows k) := by
    intro k
    refine lt_of_le_of_ne (le k) (Ne.symm ?_)
    cases k
    · exact tpre
    · exact tpost
    · exact cpre
    · exact cpost
    · have hs : DR.mean (locW level (ps c) crows .d) = DR.mean (locW level (ps c) crows .tpre) + DR.mean (locW level (ps c) crows .tpost) := by
        unfold DR.mean
        rw [← add_div, ← Finset.sum_add_distrib]
        congr 1
        refine Finset.sum_congr rfl fun i _ => ?_
        simp only [locW, DR.wTreatRC, DR.preK, DR.postK]
        ring
      rw [hs]
      exact (add_pos (lt_of_le_of_ne (le _) (Ne.symm tpre)) (lt_of_le_of_ne (le _) (Ne.symm tpost))).ne'
    · exact tpost
    · exact tpre
  have hfl : (parts.map (compPartC c)).flatten = crows := by rw [flatten_compPartC, hrows, hcrows]
  have fin : ∀ (A : K) (G : Fin crows.length → K), cellDistRC m inv level (ps c) (β c) (parts.map (compPartC c)) = some (A, List.ofFn G) →
      ∃ g, compGlobalRC m inv level ps β parts c = some g ∧ g.drAtt = A ∧ ∀ k, rowIFRC m level (ps c) (β c) g (toC rows[(e k).1]) = G k := by
    intro A G hcell
    unfold cellDistRC at hcell
    rw [Option.map_eq_some_iff] at hcell
    obtain ⟨g, hg1, hg2⟩ := hcell
    simp only [Prod.mk.injEq] at hg2
    refine ⟨g, hg1, hg2.1, fun k => ?_⟩
    have h2 := hg2.2
    rw [gflatMap_rows, hfl, gmap_eq_ofFn] at h2
    have h3 := congrFun (List.ofFn_injective h2) k
    rw [← he k]
    exact h3
  have close : ∀ (G : Triple.Sub (cSg rows) c → K) g, (∀ k, rowIFRC m level (ps c) (β c) g (toC rows[(e k).1]) = G (e k)) →
      ∀ i, compRowIFRC m level ps β g c rows[i] = Triple.scatter (cSg rows) c G i := by
    intro G g hk i
    have hs : inCompC c rows[i] = true ↔ (cSg rows i = 4 ∨ cSg rows i = c) := by simp [inCompC, cSg]
    unfold compRowIFRC Triple.scatter
    by_cases hi' : cSg rows i = 4 ∨ cSg rows i = c
    · rw [if_pos (hs.2 hi'), dif_pos hi']
      have hall : ∀ j : Triple.Sub (cSg rows) c, rowIFRC m level (ps c) (β c) g (toC rows[j.1]) = G j := by
        intro j
        obtain ⟨k, rfl⟩ := e.surjective j
        exact hk k
      exact hall ⟨i, hi'⟩
    · rw [if_neg (fun q => hi' (hs.1 q)), dif_neg hi']
  cases m
  · have hdr := C46_rc_dr inv level (ps c) (β c) (parts.map (compPartC c)) crows hfl hpos
    obtain ⟨g, g1, g2, g3⟩ := fin _ _ hdr
    have ho : ∀ arm pre treat, (match treat, pre with
        | false, true => Arm.cpre
        | false, false => .cpost
        | true, true => .tpre
        | true, false => .tpost) = arm → DR.fitted (rcX crows) (β c arm) =
        fun k => Triple.rcOut F .dr c (cW rows) (cX rows) (cY rows) (cPost rows) pre treat (e k) := by
      intro arm pre treat ha
      funext k
      rw [hX]
      have := rcOut_loc h (by decide) hc pre treat (e k)
      simp only [estOf] at this
      rw [this, ha]
      rfl
    rw [ho .cpre true false rfl, ho .cpost false false rfl, ho .tpre true true rfl, ho .tpost false true rfl, hD, hTr, hPost, hPs, hY, hW] at g2 g3
    simp only [estOf] at g2 g3 ⊢
    refine ⟨g, g1, ?_, close _ g fun k => ?_⟩
    · rw [g2]
      unfold Triple.compAttRC
      simp only
      exact (drRC_equiv e _ _ _ _ _ _ _ _ _ _).symm
    · rw [g3 k]
      unfold Triple.compIFRC
      simp only
      rw [drRCIF_equiv e]
      rw [← hM .cpre true false rfl, ← hM .cpost false false rfl, ← hM .tpre true true rfl, ← hM .tpost false true rfl]
      simp only [estOf] at hH
      rw [← hH, hX, hW, hPs]
      rfl
  · exact absurd rfl hm
  · have hipw := C46_rc_ipw inv level (ps c) (β c) (parts.map (compPartC c)) crows hfl hpos
    obtain ⟨g, g1, g2, g3⟩ := fin _ _ hipw
    simp only [estOf] at hH
    rw [hH] at g3
    rw [hD, hTr, hPost, hPs, hY, hW] at g2 g3
    rw [hX] at g3
    simp only [estOf] at g2 g3 ⊢
    refine ⟨g, g1, ?_, close _ g fun k => ?_⟩
    · rw [g2]
      unfold Triple.compAttRC
      simp only
      exact (ipwRC_equiv e _ _ _ _ _ _).symm
    · rw [g3 k]
      unfold Triple.compIFRC
      simp only
      rw [ipwRCIF_equiv e]

end One

theorem compWeightC_eq (c : ℕ) (parts : List (List (TCRow κ K))) (rows : List (TCRow κ K)) (hrows : parts.flatten = rows) :
    compWeightC c parts = (Triple.ratio (cSg rows) c : K) := by
  obtain ⟨e, -⟩ := compC_equiv rows c _ rfl
  have h1 : (parts.map fun p => (compPartC c p).length).sum = Fintype.card (Triple.Sub (cSg rows) c) := by
    rw [← Fintype.card_congr e, Fintype.card_fin, ← hrows, ← flatten_compPartC, List.length_flatten, List.map_map]
    rfl
  have h2 : ((parts.map List.length).sum : K) = (Fintype.card (Fin rows.length) : K) := by
    rw [Fintype.card_fin, ← hrows, List.length_flatten]
  unfold compWeightC Triple.ratio
  rw [h1]
  simp only [Nat.cast_list_sum, List.map_map] at h2 ⊢
  rw [← h2]

/-- C179: on repeated cross-sections, doubly robust and weighting: for every partitioning of the observations of a cell, whenever the
single-machine estimator returns, the distributed computation returns the same estimate and the same influence values. -/
theorem C179_cell (m : Method) (hm : m ≠ .reg) (inv : (κ → κ → K) → κ → κ → K) (hi level : K) (hl : level ≤ hi) (ps : ℕ → (κ → K) → K)
    (β : ℕ → Arm → κ → K) (parts : List (List (TCRow κ K))) (rows : List (TCRow κ K)) (hrows : parts.flatten = rows)
    (F : Triple.FitsRC (cSg rows) κ K) (hF : SameFitsRC m inv hi ps β rows F) (hw : ∀ r ∈ rows, r.w = 1)
    (hp : ∀ c, ∀ r ∈ rows, 0 ≤ ps c r.x ∧ ps c r.x < 1) (a : K) (f : Fin rows.length → K)
    (hok : Triple.dddRC F (estOf m) hi level (cY rows) (cPost rows) (cX rows) (fun _ => 1) = .ok (a, f)) :
    dddDistRC m inv level ps β parts = some (a, List.ofFn fun i : Fin rows.length => (rows[i].id, f i)) := by
  unfold Triple.dddRC at hok
  by_cases k1 : ∃ i : Fin rows.length, ((fun _ => 1 : Fin rows.length → K) i < 0)
  · rw [if_pos k1] at hok; cases hok
  rw [if_neg k1] at hok
  by_cases k2 : ∃ i, cSg rows i ∉ [1, 2, 3, 4]
  · rw [if_pos k2] at hok; cases hok
  rw [if_neg k2] at hok
  by_cases k3 : ¬ ∃ i, cSg rows i = 4
  · rw [if_pos k3] at hok; cases hok
  rw [if_neg k3] at hok
  have hn : (Fintype.card (Fin rows.length) : K) ≠ 0 := by
    obtain ⟨i, -⟩ := not_not.1 k3
    have : 0 < rows.length := i.pos
    rw [Fintype.card_fin]
    exact_mod_cast this.ne'
  have e : DR.normalize (fun _ : Fin rows.length => (1 : K)) = cW rows := by
    funext i
    unfold DR.normalize DR.mean cW
    rw [hw rows[i] (List.getElem_mem _)]
    simp only [Finset.sum_const, Finset.card_univ, nsmul_eq_mul, mul_one]
    rw [div_self hn, div_one]
  dsimp only at hok
  rw [e] at hok
  have hw' : ∀ r ∈ rows, 0 ≤ r.w := fun r hr => by rw [hw r hr]; exact zero_le_one
  rcases h3 : Triple.compDidRC F (estOf m) hi level 3 (cW rows) (cX rows) (cY rows) (cPost rows) with e | r3
  · rw [h3] at hok; cases hok
  rcases h2 : Triple.compDidRC F (estOf m) hi level 2 (cW rows) (cX rows) (cY rows) (cPost rows) with e | r2
  · rw [h3, h2] at hok; cases hok
  rcases h1 : Triple.compDidRC F (estOf m) hi level 1 (cW rows) (cX rows) (cY rows) (cPost rows) with e | r1
  · rw [h3, h2, h1] at hok; cases hok
  rw [h3, h2, h1] at hok
  have hok' : Triple.combine3 (cSg rows) r3 r2 r1 = (a, f) := by injection hok
  obtain ⟨g3, e3, a3, f3⟩ := compC_eq hF hm hl (c := 3) (by simp) hw' hp parts hrows h3
  obtain ⟨g2, e2, a2, f2⟩ := compC_eq hF hm hl (c := 2) (by simp) hw' hp parts hrows h2
  obtain ⟨g1, e1, a1, f1⟩ := compC_eq hF hm hl (c := 1) (by simp) hw' hp parts hrows h1
  unfold Triple.combine3 at hok'
  simp only [Prod.mk.injEq] at hok'
  obtain ⟨rfl, rfl⟩ := hok'
  unfold dddDistRC
  rw [e3, e2, e1]
  simp only [Option.bind_some, Option.map_some, Option.some.injEq, Prod.mk.injEq]
  refine ⟨by rw [a3, a2, a1], ?_⟩
  have hfm : ∀ (ph : TCRow κ K → ℤ × K), (parts.flatMap fun p => p.map ph) = parts.flatten.map ph := by
    intro ph
    rw [List.map_flatten]
    rfl
  rw [hfm, hrows]
  apply List.ext_getElem (by simp)
  intro i k1 k2
  simp only [List.getElem_map, List.getElem_ofFn]
  have hlt : i < rows.length := by simpa using k1
  have q3 := f3 ⟨i, hlt⟩
  have q2 := f2 ⟨i, hlt⟩
  have q1 := f1 ⟨i, hlt⟩
  simp only [Fin.getElem_fin] at q3 q2 q1
  refine Prod.ext rfl ?_
  show compWeightC 3 parts * _ + compWeightC 2 parts * _ + -compWeightC 1 parts * _ = _
  rw [q3, q2, q1]
  simp only [compWeightC_eq 3 parts rows hrows, compWeightC_eq 2 parts rows hrows, compWeightC_eq 1 parts rows hrows]
  ring

/-! ## Outcome regression -/

/-- Weights of the `reg` method, `_ddd_partition.py:565-579` with `keep_ps = 1`. -/
def wRowReg (k : W) (r : CRow κ K) : K :=
  match k with
  | .tpre | .dt0 => r.w * dnum r.d * (1 - dnum r.post)
  | .tpost | .dt1 => r.w * dnum r.d * dnum r.post
  | .cpre => r.w * (1 - dnum r.d) * (1 - dnum r.post)
  | .cpost => r.w * (1 - dnum r.d) * dnum r.post
  | .d => r.w * dnum r.d

/-- The sums behind the `reg` estimate, `_ddd_partition.py:581-598`. -/
def partSumReg (β : Arm → κ → K) (p : List (CRow κ K)) : Option ((W ⊕ E → K) × ℕ) :=
  if p = [] then none else some
    (fun s => match s with
      | .inl k => (p.map (wRowReg k)).sum
      | .inr e => (p.map fun r => wRowReg (wOf e) r * resRow .reg β e r).sum, p.length)

/-- `dr_att` of one comparison for `reg`: the same `_build_rc_global_agg`, `_ddd_partition.py:778-812`. -/
def regCompAtt (β : Arm → κ → K) (parts : List (List (CRow κ K))) : Option K :=
  ((parts.map (partSumReg β)).foldl optAdd none).bind fun g =>
    let n : K := (g.2 : ℕ)
    let att := fun e => posOr (g.1 (.inl (wOf e)) / n) ((g.1 (.inr e) / n) / (g.1 (.inl (wOf e)) / n))
    if g.2 = 0 then none else
      some ((att .tpost - att .tpre) - (att .cpost - att .cpre) + (att .dpost - att .dt1post) - (att .dpre - att .dt0pre))

/-- The weighted mean of `v` over the rows selected by `q`. -/
def meanOver (rows : List (CRow κ K)) (q : CRow κ K → Bool) (v : CRow κ K → K) : K :=
  ((rows.filter q).map fun r => r.w * v r).sum / ((rows.filter q).map CRow.w).sum

/-- Residuals of the fitted regression of an arm average to zero (weighted least squares with an intercept). -/
def Centred (β : Arm → κ → K) (rows : List (CRow κ K)) (a : Arm) : Prop :=
  ((rows.filter (armMask a)).map fun r => r.w * (r.y - eta r.x (β a))).sum = 0

theorem regSum_eq (β : Arm → κ → K) (parts : List (List (CRow κ K))) :
    (parts.map (partSumReg β)).foldl optAdd none = partSumReg β parts.flatten := by
  rw [(C44_driver_reductions _).2]
  have : partSumReg β = contribution (fun _ => true) (fun r : CRow κ K => ((fun s => match s with
      | .inl k => wRowReg k r
      | .inr e => wRowReg (wOf e) r * resRow .reg β e r, 1) : (W ⊕ E → K) × ℕ)) := by
    funext p
    unfold partSumReg contribution
    simp only [List.filter_true]
    by_cases h : p = []
    · rw [if_pos h, if_pos h]
    · rw [if_neg h, if_neg h]
      congr 1
      clear h
      induction p with
      | nil =>
        refine Prod.ext ?_ rfl
        funext s; cases s <;> rfl
      | cons r l ih =>
        rw [List.map_cons, List.sum_cons, ← ih]
        refine Prod.ext ?_ ?_
        · funext s; cases s <;> simp
        · simp [add_comm]
  rw [this, totalOf_contribution]

/-- Sum with an indicator weight, as a sum over the selected rows. -/
theorem sum_ind (rows : List (CRow κ K)) (q : CRow κ K → Bool) (wf : CRow κ K → K) (h : ∀ r, wf r = if q r then r.w else 0) (v : CRow κ K → K) :
    (rows.map fun r => wf r * v r).sum = ((rows.filter q).map fun r => r.w * v r).sum := by
  rw [filter_sum]
  congr 1
  refine List.map_congr_left fun r _ => ?_
  rw [h r]
  split_ifs <;> ring

/-- Which rows a weight selects. -/
def selOf (k : W) : CRow κ K → Bool :=
  match k with
  | .tpre | .dt0 => armMask .tpre
  | .tpost | .dt1 => armMask .tpost
  | .cpre => armMask .cpre
  | .cpost => armMask .cpost
  | .d => CRow.d

theorem wRowReg_sel (k : W) (r : CRow κ K) : wRowReg k r = if selOf k r then r.w else 0 := by
  rcases r with ⟨x, d, p, y, w⟩
  cases k <;> cases d <;> cases p <;> simp [wRowReg, selOf, armMask, dnum]

/-- C179 violated (outcome regression), the exact gap: on one comparison the distributed estimate is not the regression estimate of the
single-machine code but differs from it by the change the fitted treated-arm regressions predict for the whole treated group minus the
observed change of the treated group, whatever the partitioning.  The hypotheses on the residuals are the normal equations of the four
regressions for an intercept. -/
theorem C179_reg_violated (β : Arm → κ → K) (parts : List (List (CRow κ K))) (rows : List (CRow κ K)) (hrows : parts.flatten = rows)
    (hw : ∀ r ∈ rows, 0 < r.w) (hne : ∀ a : Arm, rows.filter (armMask a) ≠ []) (hres : ∀ a, Centred β rows a) :
    regCompAtt β parts = some (DR.regRC (rcD rows) (rcPost rows) (DR.fitted (rcX rows) (β .cpre)) (DR.fitted (rcX rows) (β .cpost)) (rcY rows) (rcW rows)
      + (meanOver rows CRow.d (fun r => eta r.x (β .tpost) - eta r.x (β .tpre)) -
          (meanOver rows (armMask .tpost) CRow.y - meanOver rows (armMask .tpre) CRow.y))) := by
  have hnil : rows ≠ [] := by rintro rfl; exact hne .cpre rfl
  have hn : (0 : K) < (rows.length : K) := by exact_mod_cast List.length_pos_of_ne_nil hnil
  have hsel : ∀ k : W, 0 < ((rows.filter (selOf k)).map CRow.w).sum := by
    intro k
    have pos : ∀ q : CRow κ K → Bool, rows.filter q ≠ [] → 0 < ((rows.filter q).map CRow.w).sum := by
      intro q hq
      refine List.sum_pos _ (fun x hx => ?_) (fun hh => hq (List.map_eq_nil_iff.1 hh))
      obtain ⟨r, hr, rfl⟩ := List.mem_map.1 hx
      exact hw r (List.mem_filter.1 hr).1
    cases k
    · exact pos _ (hne .tpre)
    · exact pos _ (hne .tpost)
    · exact pos _ (hne .cpre)
    · exact pos _ (hne .cpost)
    · refine pos _ fun hh => hne .tpre ?_
      rw [List.filter_eq_nil_iff] at hh ⊢
      intro r hr hm
      refine hh r hr ?_
      simp only [armMask, Bool.and_eq_true] at hm
      exact hm.1
    · exact pos _ (hne .tpost)
    · exact pos _ (hne .tpre)
  have sW : ∀ k, (rows.map (wRowReg k)).sum = ((rows.filter (selOf k)).map CRow.w).sum := by
    intro k
    have := sum_ind rows (selOf k) (wRowReg k) (wRowReg_sel k) fun _ => 1
    simp only [mul_one] at this
    exact this
  have sE : ∀ k (v : CRow κ K → K), (rows.map fun r => wRowReg k r * v r).sum = ((rows.filter (selOf k)).map fun r => r.w * v r).sum :=
    fun k v => sum_ind rows (selOf k) (wRowReg k) (wRowReg_sel k) v
  have key : ∀ e : E, posOr ((rows.map (wRowReg (wOf e))).sum / (rows.length : K))
      (((rows.map fun r => wRowReg (wOf e) r * resRow .reg β e r).sum / (rows.length : K)) / ((rows.map (wRowReg (wOf e))).sum / (rows.length : K))) =
      meanOver rows (selOf (wOf e)) (resRow .reg β e) := by
    intro e
    rw [posOr, if_pos (by rw [sW]; exact div_pos (hsel _) hn), sW, sE, meanOver]
    rw [div_div_div_cancel_right₀ hn.ne']
  unfold regCompAtt
  rw [regSum_eq, hrows, partSumReg, if_neg hnil]
  simp only [Option.bind_some, List.length_eq_zero_iff, if_neg hnil, key]
  congr 1
  -- weighted means over the arms
  have lin : ∀ (q : CRow κ K → Bool) (u v : CRow κ K → K), meanOver rows q (fun r => u r - v r) = meanOver rows q u - meanOver rows q v := by
    intro q u v
    unfold meanOver
    rw [← sub_div]
    congr 1
    induction rows.filter q with
    | nil => simp
    | cons r l ih => simp only [List.map_cons, List.sum_cons, ih]; ring
  have cong : ∀ (q : CRow κ K → Bool) (u v : CRow κ K → K), (∀ r, q r = true → u r = v r) → meanOver rows q u = meanOver rows q v := by
    intro q u v h
    unfold meanOver
    congr 2
    refine List.map_congr_left fun r hr => ?_
    rw [h r (List.mem_filter.1 hr).2]
  have zero : ∀ a : Arm, meanOver rows (armMask a) (fun r => r.y - eta r.x (β a)) = 0 := by
    intro a
    unfold meanOver
    rw [hres a, zero_div]
  have o : ∀ a (r : CRow κ K), outC .reg β a r = eta r.x (β a) := by intro a r; simp [outC]
  have oc1 : ∀ r : CRow κ K, r.post = true → outCont .reg β r = eta r.x (β .cpost) := by intro r h; simp [outCont, o, h, dnum]
  have oc0 : ∀ r : CRow κ K, r.post = false → outCont .reg β r = eta r.x (β .cpre) := by intro r h; simp [outCont, o, h, dnum]
  have e1 : meanOver rows (armMask .tpost) (resRow .reg β .tpost) = meanOver rows (armMask .tpost) CRow.y - meanOver rows (armMask .tpost) fun r => eta r.x (β .cpost) := by
    rw [← lin]; refine cong _ _ _ fun r hr => ?_
    simp only [armMask, Bool.and_eq_true] at hr
    simp only [resRow, oc1 r hr.2]
  have e2 : meanOver rows (armMask .tpre) (resRow .reg β .tpre) = meanOver rows (armMask .tpre) CRow.y - meanOver rows (armMask .tpre) fun r => eta r.x (β .cpre) := by
    rw [← lin]; refine cong _ _ _ fun r hr => ?_
    simp only [armMask, Bool.and_eq_true, Bool.not_eq_true'] at hr
    simp only [resRow, oc0 r hr.2]
  have e3 : meanOver rows (armMask .cpost) (resRow .reg β .cpost) = 0 := by
    rw [← zero .cpost]; refine cong _ _ _ fun r hr => ?_
    simp only [armMask, Bool.and_eq_true] at hr
    simp only [resRow, oc1 r hr.2]
  have e4 : meanOver rows (armMask .cpre) (resRow .reg β .cpre) = 0 := by
    rw [← zero .cpre]; refine cong _ _ _ fun r hr => ?_
    simp only [armMask, Bool.and_eq_true, Bool.not_eq_true'] at hr
    simp only [resRow, oc0 r hr.2]
  have e5 : ∀ q, meanOver rows q (resRow .reg β .dpost) = meanOver rows q (fun r => eta r.x (β .tpost)) - meanOver rows q fun r => eta r.x (β .cpost) := by
    intro q; rw [← lin]; exact cong _ _ _ fun r _ => by simp only [resRow, o]
  have e6 : ∀ q, meanOver rows q (resRow .reg β .dt1post) = meanOver rows q (fun r => eta r.x (β .tpost)) - meanOver rows q fun r => eta r.x (β .cpost) := by
    intro q; rw [← lin]; exact cong _ _ _ fun r _ => by simp only [resRow, o]
  have e7 : ∀ q, meanOver rows q (resRow .reg β .dpre) = meanOver rows q (fun r => eta r.x (β .tpre)) - meanOver rows q fun r => eta r.x (β .cpre) := by
    intro q; rw [← lin]; exact cong _ _ _ fun r _ => by simp only [resRow, o]
  have e8 : ∀ q, meanOver rows q (resRow .reg β .dt0pre) = meanOver rows q (fun r => eta r.x (β .tpre)) - meanOver rows q fun r => eta r.x (β .cpre) := by
    intro q; rw [← lin]; exact cong _ _ _ fun r _ => by simp only [resRow, o]
  have z1 := zero .tpost
  have z2 := zero .tpre
  rw [lin] at z1 z2
  have wm : ∀ (k : W) (wf v : Fin rows.length → K) (vf : CRow κ K → K), (∀ i : Fin rows.length, wf i = wRowReg k rows[i]) →
      (∀ i : Fin rows.length, v i = vf rows[i]) → DR.wmean wf v = meanOver rows (selOf k) vf := by
    intro k wf v vf h1 h2
    unfold DR.wmean
    have a1 := gsum_rows rows (fun r => wRowReg k r * vf r) (fun i => wf i * v i) (fun i => by rw [h1, h2])
    have a2 := gsum_rows rows (wRowReg k) wf (fun i => (h1 i).symm)
    rw [← a1, ← a2, sW, sE, meanOver, div_div_div_cancel_right₀ hn.ne']
  have r1 : DR.regRC (rcD rows) (rcPost rows) (DR.fitted (rcX rows) (β .cpre)) (DR.fitted (rcX rows) (β .cpost)) (rcY rows) (rcW rows) =
      (meanOver rows (armMask .tpost) CRow.y - meanOver rows (armMask .tpre) CRow.y) -
        (meanOver rows CRow.d (fun r => eta r.x (β .cpost)) - meanOver rows CRow.d fun r => eta r.x (β .cpre)) := by
    unfold DR.regRC
    rw [← lin]
    congr 1
    · congr 1
      · exact wm .tpost _ _ _ (fun i => rfl) fun i => rfl
      · exact wm .tpre _ _ _ (fun i => rfl) fun i => rfl
    · exact wm .d _ _ _ (fun i => rfl) fun i => rfl
  rw [r1, lin]
  simp only [wOf, selOf, e1, e2, e3, e4, e5, e6, e7, e8]
  linear_combination z1 - z2

/-- C179 (outcome regression): the gap closes when the treated group has the same average covariates before and after. -/
theorem C179_reg_stationary (β : Arm → κ → K) (parts : List (List (CRow κ K))) (rows : List (CRow κ K)) (hrows : parts.flatten = rows)
    (hw : ∀ r ∈ rows, 0 < r.w) (hne : ∀ a : Arm, rows.filter (armMask a) ≠ []) (hres : ∀ a, Centred β rows a)
    (hx : ∀ k, meanOver rows (armMask .tpost) (fun r => r.x k) = meanOver rows (armMask .tpre) fun r => r.x k) :
    regCompAtt β parts = some (DR.regRC (rcD rows) (rcPost rows) (DR.fitted (rcX rows) (β .cpre)) (DR.fitted (rcX rows) (β .cpost)) (rcY rows) (rcW rows)) := by
  rw [C179_reg_violated β parts rows hrows hw hne hres]
  congr 1
  rw [add_eq_left]
  have pos : ∀ a : Arm, 0 < ((rows.filter (armMask a)).map CRow.w).sum := by
    intro a
    refine List.sum_pos _ (fun x hx => ?_) (fun hh => hne a (List.map_eq_nil_iff.1 hh))
    obtain ⟨r, hr, rfl⟩ := List.mem_map.1 hx
    exact hw r (List.mem_filter.1 hr).1
  have lin : ∀ (q : CRow κ K → Bool) (u v : CRow κ K → K), meanOver rows q (fun r => u r - v r) = meanOver rows q u - meanOver rows q v := by
    intro q u v
    unfold meanOver
    rw [← sub_div]
    congr 1
    induction rows.filter q with
    | nil => simp
    | cons r l ih => simp only [List.map_cons, List.sum_cons, ih]; ring
  have z : ∀ a : Arm, meanOver rows (armMask a) CRow.y = meanOver rows (armMask a) fun r => eta r.x (β a) := by
    intro a
    have := hres a
    have h2 := lin (armMask a) CRow.y fun r => eta r.x (β a)
    have h3 : meanOver rows (armMask a) (fun r => r.y - eta r.x (β a)) = 0 := by unfold meanOver; rw [this, zero_div]
    rw [h3] at h2
    linear_combination -h2
  have leta : ∀ (q : CRow κ K → Bool) (b : κ → K), meanOver rows q (fun r => eta r.x b) = ∑ k, meanOver rows q (fun r => r.x k) * b k := by
    intro q b
    unfold meanOver eta
    simp only [div_mul_eq_mul_div]
    rw [← Finset.sum_div]
    congr 1
    induction rows.filter q with
    | nil => simp
    | cons r l ih =>
      simp only [List.map_cons, List.sum_cons]
      rw [ih]
      simp only [Finset.mul_sum, add_mul, Finset.sum_add_distrib]
      congr 1
      exact Finset.sum_congr rfl fun k _ => by ring
  have split : ∀ v : CRow κ K → K, ((rows.filter CRow.d).map v).sum = ((rows.filter (armMask .tpost)).map v).sum + ((rows.filter (armMask .tpre)).map v).sum := by
    intro v
    rw [filter_sum, filter_sum, filter_sum]
    clear hrows hw hne hres hx pos lin z leta
    induction rows with
    | nil => simp
    | cons r l ih =>
      simp only [List.map_cons, List.sum_cons, ih]
      have : (if r.d = true then (1 : K) else 0) = (if armMask .tpost r = true then 1 else 0) + if armMask .tpre r = true then 1 else 0 := by
        rcases r with ⟨x, d, p, y, w⟩
        cases d <;> cases p <;> simp [armMask]
      rw [this]
      ring
  have hxd : ∀ k, meanOver rows CRow.d (fun r => r.x k) = meanOver rows (armMask .tpost) fun r => r.x k := by
    intro k
    have h0 := hx k
    unfold meanOver at h0 ⊢
    rw [split, split]
    have p1 := pos .tpost
    have p2 := pos .tpre
    rw [div_eq_div_iff p1.ne' p2.ne'] at h0
    rw [div_eq_div_iff (add_pos p1 p2).ne' p1.ne']
    linear_combination -h0
  rw [lin, z, z, leta, leta, leta, leta]
  simp only [hxd, ← hx]
  ring

/-! ## Non-vacuity -/

/-- Treated units observed at covariate value 0 before and 2 after; the outcome of the treated equals the covariate after, zero otherwise. -/
def regRows : List (CRow (Fin 2) ℚ) :=
  [⟨![1, 0], true, false, 0, 1⟩, ⟨![1, 2], true, true, 2, 1⟩, ⟨![1, 0], false, false, 0, 1⟩, ⟨![1, 0], false, true, 0, 1⟩]

def regβ : Arm → Fin 2 → ℚ
  | .tpost => ![0, 1]
  | _ => ![0, 0]

/-- All hypotheses hold and the two estimates are 1 (distributed) and 2 (single machine). -/
example : (∀ r ∈ regRows, 0 < r.w) ∧ (∀ a ∈ [Arm.cpre, .cpost, .tpre, .tpost], regRows.filter (armMask a) ≠ []) ∧
    (∀ a ∈ [Arm.cpre, .cpost, .tpre, .tpost], ((regRows.filter (armMask a)).map fun r => r.w * (r.y - eta r.x (regβ a))).sum = 0) ∧
    regCompAtt regβ [regRows.take 1, [], regRows.drop 1] = some 1 ∧
    DR.regRC (rcD regRows) (rcPost regRows) (DR.fitted (rcX regRows) (regβ .cpre)) (DR.fitted (rcX regRows) (regβ .cpost)) (rcY regRows) (rcW regRows) = 2 := by
  refine ⟨?_, ?_, ?_, ?_, ?_⟩
  · decide +kernel
  · simp [regRows, armMask]
  · decide +kernel
  · decide +kernel
  · decide +kernel

/-- A cell with all four subgroups before and after. -/
def rcParts : List (List (TCRow (Fin 1) ℚ)) :=
  [[⟨1, fun _ => 1, 4, true, 9, 1⟩, ⟨2, fun _ => 1, 4, false, 4, 1⟩, ⟨3, fun _ => 1, 3, true, 3, 1⟩, ⟨4, fun _ => 1, 3, false, 1, 1⟩], [],
   [⟨5, fun _ => 1, 2, true, 3, 1⟩, ⟨6, fun _ => 1, 2, false, 1, 1⟩, ⟨7, fun _ => 1, 1, true, 2, 1⟩, ⟨8, fun _ => 1, 1, false, 1, 1⟩]]

/-- Fits with scores 1/2. -/
def rcF : Triple.FitsRC (cSg rcParts.flatten) (Fin 1) ℚ :=
  ⟨fun _ _ _ _ _ _ => 0, fun _ _ _ _ _ => 1 / 2, fun c _ a b => (∑ i : Triple.Sub (cSg rcParts.flatten) c,
    rcParts.flatten[i.1].w * (1 / 2) * (1 - 1 / 2) * rcParts.flatten[i.1].x a * rcParts.flatten[i.1].x b)⁻¹ *
      (Fintype.card (Triple.Sub (cSg rcParts.flatten) c) : ℚ), fun M a b => (M a b)⁻¹⟩

/-- Weighting with scores 1/2: the fits agree and the single-machine estimator returns a non-trivial value. -/
example : SameFitsRC .ipw (fun M a b => (M a b)⁻¹) 1 (fun _ _ => 1 / 2) (fun _ _ _ => 0) rcParts.flatten rcF ∧
    ∃ r, Triple.dddRC rcF .ipw 1 1 (cY rcParts.flatten) (cPost rcParts.flatten) (cX rcParts.flatten) (fun _ => 1) = .ok r ∧ r.1 = 2 := by
  constructor
  · refine ⟨rfl, ?_, ?_, ?_⟩
    · intro _ c _ i; simp only [rcF]; norm_num
    · intro h; exact absurd rfl h
    · intro _ c _; rfl
  · have key : (match Triple.dddRC rcF .ipw 1 1 (cY rcParts.flatten) (cPost rcParts.flatten) (cX rcParts.flatten) (fun _ => 1) with
      | .ok r => decide (r.1 = 2)
      | .error _ => false) = true := by decide +kernel
    split at key
    · rename_i r h
      exact ⟨r, h, by simpa using key⟩
    · cases key

end Verif.Dist
