import Verif.Dist.ModelRC
import Verif.Dist.Cell

/-!
# Distributed DiD cells equal the single-machine estimators (C46), repeated cross-sections

The single-machine side is `Verif.DR.Model` (`drdid_rc`, `std_ipw_did_rc`, `reg_did_rc`) with the observations of all
partitions, in partition order, as the sample.
-/

set_option linter.unusedSectionVars false
set_option linter.unusedSimpArgs false

namespace Verif.Dist

variable {κ K : Type*} [Fintype κ] [Field K] [LinearOrder K] [IsStrictOrderedRing K]

/-! ## The sample arrays -/

def rcD (rows : List (CRow κ K)) (i : Fin rows.length) : Bool := rows[i].d
def rcPost (rows : List (CRow κ K)) (i : Fin rows.length) : Bool := rows[i].post
def rcX (rows : List (CRow κ K)) (i : Fin rows.length) : κ → K := rows[i].x
def rcY (rows : List (CRow κ K)) (i : Fin rows.length) : K := rows[i].y
def rcW (rows : List (CRow κ K)) (i : Fin rows.length) : K := rows[i].w
def rcPs (ps : (κ → K) → K) (rows : List (CRow κ K)) (i : Fin rows.length) : K := ps rows[i].x
def rcTr (level : K) (ps : (κ → K) → K) (rows : List (CRow κ K)) : Fin rows.length → Bool :=
  DR.trim level (rcD rows) (rcPs ps rows)

/-- Gram matrix of the observations of one arm and period over `n`. -/
def rcGram (sel : Fin n → K) (w : Fin n → K) (x : Fin n → κ → K) (a b : κ) : K :=
  DR.mean fun i => w i * sel i * x i a * x i b

/-- Information matrix of the logit. -/
def rcInfo (ps w : Fin n → K) (x : Fin n → κ → K) (a b : κ) : K :=
  ∑ i, w i * ps i * (1 - ps i) * x i a * x i b

/-! ## Linking the distributed row formulas with the sample arrays -/

theorem gsum_rows {R : Type*} (rows : List R) (f : R → K) (g : Fin rows.length → K) (h : ∀ i, f rows[i] = g i) :
    (rows.map f).sum / (rows.length : K) = DR.mean g := by
  rw [← mean_rows]
  congr 1
  funext i
  exact h i

theorem gflatMap_rows {R : Type*} (f : R → K) (parts : List (List R)) :
    (parts.flatMap fun p => p.map f) = parts.flatten.map f := by
  induction parts with
  | nil => rfl
  | cons p ps ih => simp [ih]

theorem gmap_eq_ofFn {R : Type*} (rows : List R) (f : R → K) :
    rows.map f = List.ofFn fun i : Fin rows.length => f rows[i] := by
  apply List.ext_getElem (by simp)
  intro i h1 h2
  simp

theorem filter_sum {R : Type*} (p : List R) (q : R → Bool) (f : R → K) :
    ((p.filter q).map f).sum = (p.map fun r => (if q r then 1 else 0) * f r).sum := by
  induction p with
  | nil => rfl
  | cons r p ih => cases h : q r <;> simp [List.filter_cons, h, ih]

/-- The per-observation dictionary behind `_partition_did_rc_global_stats`. -/
def rowStatsRC (m : Method) (level : K) (ps : (κ → K) → K) (β : Arm → κ → K) (r : CRow κ K) :
    Stats (W ⊕ E) CV CM κ K :=
  (fun s => match s with
      | .inl k => wRow level ps k r
      | .inr e => wRow level ps (wOf e) r * resRow m β e r,
   fun v k => vRow m level ps β v r * r.x k,
   fun q a b => match q with
      | .gram c => (if armMask c r then 1 else 0) * ((r.x a * r.w) * r.x b)
      | .info => (r.x a * (r.w * ps r.x * (1 - ps r.x))) * r.x b,
   1)

theorem partStatsRC_eq (m : Method) (level : K) (ps : (κ → K) → K) (β : Arm → κ → K) (p : List (CRow κ K)) :
    partStatsRC m level ps β p = contribution (fun _ => true) (rowStatsRC m level ps β) p := by
  unfold partStatsRC contribution
  simp only [List.filter_true]
  by_cases h : p = []
  · rw [if_pos h, if_pos h]
  · rw [if_neg h, if_neg h, stats_sum]
    congr 1
    refine Prod.ext ?_ (Prod.ext ?_ (Prod.ext ?_ ?_))
    · funext s; cases s <;> rfl
    · funext v k; rfl
    · funext q a b
      cases q
      · simp only [rowStatsRC, filter_sum]
      · rfl
    · simp [rowStatsRC]

theorem aggRC_eq (m : Method) (level : K) (ps : (κ → K) → K) (β : Arm → κ → K) (parts : List (List (CRow κ K))) :
    (parts.map (partStatsRC m level ps β)).foldl optAdd none = partStatsRC m level ps β parts.flatten := by
  rw [(C44_driver_reductions _).2]
  have : partStatsRC m level ps β = contribution (fun _ => true) (rowStatsRC m level ps β) := by
    funext p; exact partStatsRC_eq m level ps β p
  rw [this, totalOf_contribution]

/-- The arm indicator used by the single-machine code. -/
def armSel (rows : List (CRow κ K)) (a : Arm) (i : Fin rows.length) : K :=
  match a with
  | .cpre => (1 - DR.ind (rcD rows) i) * DR.preK (rcPost rows) i
  | .cpost => (1 - DR.ind (rcD rows) i) * DR.postK (rcPost rows) i
  | .tpre => DR.ind (rcD rows) i * DR.preK (rcPost rows) i
  | .tpost => DR.ind (rcD rows) i * DR.postK (rcPost rows) i

theorem armSel_eq (rows : List (CRow κ K)) (a : Arm) (i : Fin rows.length) :
    (if armMask a rows[i] = true then (1 : K) else 0) = armSel rows a i := by
  unfold armSel armMask DR.ind DR.preK DR.postK DR.ind rcD rcPost
  generalize rows[i] = r
  rcases r with ⟨_, d, p, _, _⟩
  cases a <;> cases d <;> cases p <;> simp

theorem armGram_eq (rows : List (CRow κ K)) (c : Arm) (a b : κ) :
    ((rows.filter (armMask c)).map fun r => (r.x a * r.w) * r.x b).sum / (rows.length : K) =
      rcGram (armSel rows c) (rcW rows) (rcX rows) a b := by
  rw [filter_sum]
  refine gsum_rows rows _ _ fun i => ?_
  rw [armSel_eq]
  unfold rcW rcX
  ring

theorem rcInfo_eq (rows : List (CRow κ K)) (ps : (κ → K) → K) (a b : κ) :
    (rows.map fun r => (r.x a * (r.w * ps r.x * (1 - ps r.x))) * r.x b).sum =
      rcInfo (rcPs ps rows) (rcW rows) (rcX rows) a b := by
  rw [← Fin.sum_univ_fun_getElem rows]
  unfold rcInfo rcPs rcW rcX
  refine Finset.sum_congr rfl fun i _ => ?_
  simp only [Fin.getElem_fin]
  ring

/-- The single-machine weights, by key. -/
def locW (level : K) (ps : (κ → K) → K) (rows : List (CRow κ K)) (k : W) : Fin rows.length → K :=
  let d := rcD rows; let tr := rcTr level ps rows; let q := rcPs ps rows; let w := rcW rows; let post := rcPost rows
  match k with
  | .tpre => DR.wTreatRC d tr w (DR.preK post)
  | .tpost => DR.wTreatRC d tr w (DR.postK post)
  | .cpre => DR.wContRC d tr q w (DR.preK post)
  | .cpost => DR.wContRC d tr q w (DR.postK post)
  | .d => fun i => DR.ind tr i * w i * DR.ind d i
  | .dt1 => fun i => DR.ind tr i * w i * DR.ind d i * DR.postK post i
  | .dt0 => fun i => DR.ind tr i * w i * DR.ind d i * (1 - DR.postK post i)

theorem keepC_eq (level : K) (ps : (κ → K) → K) (rows : List (CRow κ K)) (i : Fin rows.length) :
    keepC level ps rows[i] = DR.ind (rcTr level ps rows) i := by
  unfold keepC DR.ind rcTr DR.trim rcD rcPs
  generalize rows[i] = r
  rcases r with ⟨x, d, p, _, _⟩
  cases d
  · by_cases hl : ps x < level <;> simp [hl]
  · simp

theorem wRow_eq (level : K) (ps : (κ → K) → K) (rows : List (CRow κ K)) (k : W) (i : Fin rows.length) :
    wRow level ps k rows[i] = locW level ps rows k i := by
  cases k <;> simp only [wRow, keepC_eq] <;> rfl

/-- The single-machine values, by key. -/
def locR (m : Method) (β : Arm → κ → K) (rows : List (CRow κ K)) (e : E) (i : Fin rows.length) : K :=
  resRow m β e rows[i]

/-- The distributed component effect is the single-machine one. -/
theorem hmean_eq {n : ℕ} (w v : Fin n → K) : DR.hmean w v = DR.mean (fun i => w i * v i) / DR.mean w := by
  unfold DR.hmean DR.mean
  rw [← Finset.sum_div]
  ring

theorem dot_mulV {n : ℕ} (sel w res : Fin n → K) (x : Fin n → κ → K) (M : κ → κ → K) (i : Fin n) (v : κ → K) (s : K)
    (hs : s = w i * sel i * res i) : ∑ k, s * x i k * mulV M v k = DR.dot (DR.alrOLS sel w res x M i) v := by
  subst hs
  unfold DR.dot DR.alrOLS mulV
  simp only [Finset.mul_sum, Finset.sum_mul]
  rw [Finset.sum_comm]
  exact Finset.sum_congr rfl fun a _ => Finset.sum_congr rfl fun b _ => by ring

theorem dotPS_mulV {n : ℕ} (d : Fin n → Bool) (q w : Fin n → K) (x : Fin n → κ → K) (M : κ → κ → K) (i : Fin n)
    (v : κ → K) : ∑ k, (w i * (DR.ind d i - q i)) * x i k * mulV M v k = DR.dot (DR.alrPS d q w x M i) v := by
  unfold DR.dot DR.alrPS mulV
  simp only [Finset.mul_sum, Finset.sum_mul]
  rw [Finset.sum_comm]
  exact Finset.sum_congr rfl fun a _ => Finset.sum_congr rfl fun b _ => by ring

theorem armTerm_eq (m : Method) (hm : m ≠ .ipw) (β : Arm → κ → K) (rows : List (CRow κ K)) (a : Arm)
    (M : κ → κ → K) (v : κ → K) (i : Fin rows.length) :
    armTerm m β a (mulV M v) rows[i] = DR.dot (DR.alrOLS (armSel rows a) (rcW rows)
      (fun i => rcY rows i - DR.fitted (rcX rows) (β a) i) (rcX rows) M i) v := by
  rw [← dot_mulV _ _ _ _ _ _ _ _ rfl, ← armSel_eq]
  unfold armTerm outC
  rw [if_neg hm, if_neg hm]
  have : rcY rows i - DR.fitted (rcX rows) (β a) i = rows[i].y - eta rows[i].x (β a) := rfl
  rw [this]
  by_cases h : armMask a rows[i] = true
  · simp only [h, if_true, mul_one]; rfl
  · simp only [h, if_false, mul_zero, zero_mul, Finset.sum_const_zero, Bool.false_eq_true]

/-- All global averages of the distributed run in terms of the sample arrays. -/
theorem lead_eq (m : Method) (level : K) (ps : (κ → K) → K) (β : Arm → κ → K) (rows : List (CRow κ K))
    (g : GlobalRC κ K) (e : E) (i : Fin rows.length)
    (hmw : g.mw (wOf e) = DR.mean (locW level ps rows (wOf e)))
    (hpos : 0 < DR.mean (locW level ps rows (wOf e)))
    (hatt : g.att e = DR.hmean (locW level ps rows (wOf e)) (locR m β rows e)) :
    leadRow m level ps β g e rows[i] = DR.lead (locW level ps rows (wOf e)) (locR m β rows e) i := by
  unfold leadRow posOr DR.lead
  rw [hmw, if_pos hpos, hatt, wRow_eq]
  rfl

theorem moment_diff {n : ℕ} (f g : Fin n → K) (a b : K) (x : Fin n → κ → K) (k : κ) :
    (DR.mean fun i => f i * x i k) / a - (DR.mean fun i => g i * x i k) / b =
      DR.mean fun j => (f j / a - g j / b) * x j k := by
  unfold DR.mean
  rw [div_right_comm, div_right_comm _ _ b, ← sub_div, Finset.sum_div, Finset.sum_div, ← Finset.sum_sub_distrib]
  congr 1
  exact Finset.sum_congr rfl fun j _ => by ring

theorem moment_cent {n : ℕ} (f res : Fin n → K) (c : K) (x : Fin n → κ → K) (k : κ) :
    (DR.mean fun i => f i * res i * x i k) - c * (DR.mean fun i => f i * x i k) =
      DR.mean fun j => (f j * (res j - c)) * x j k := by
  unfold DR.mean
  rw [mul_div_assoc', ← sub_div, Finset.mul_sum, ← Finset.sum_sub_distrib]
  congr 1
  exact Finset.sum_congr rfl fun j _ => by ring

theorem dot_add_r {κ : Type*} [Fintype κ] (a b c : κ → K) : DR.dot a (fun k => b k - c k) = DR.dot a b - DR.dot a c := by
  unfold DR.dot
  rw [← Finset.sum_sub_distrib]
  exact Finset.sum_congr rfl fun k _ => by ring

theorem dot_sub_l {κ : Type*} [Fintype κ] (a b c : κ → K) : DR.dot (fun k => a k - b k) c = DR.dot a c - DR.dot b c := by
  unfold DR.dot
  rw [← Finset.sum_sub_distrib]
  exact Finset.sum_congr rfl fun k _ => by ring

/-- C46 (doubly robust, repeated cross-sections): for every partitioning of the observations of a cell, the distributed
estimate and all influence values are those of `drdid_rc` on the concatenated data, with the same fitted scores and
coefficients. -/
theorem C46_rc_dr (inv : (κ → κ → K) → κ → κ → K) (level : K) (ps : (κ → K) → K) (β : Arm → κ → K)
    (parts : List (List (CRow κ K))) (rows : List (CRow κ K)) (hrows : parts.flatten = rows)
    (hpos : ∀ k, 0 < DR.mean (locW level ps rows k)) :
    cellDistRC .dr inv level ps β parts = some
      (DR.drRC (rcD rows) (rcTr level ps rows) (rcPost rows) (rcPs ps rows)
          (DR.fitted (rcX rows) (β .cpre)) (DR.fitted (rcX rows) (β .cpost))
          (DR.fitted (rcX rows) (β .tpre)) (DR.fitted (rcX rows) (β .tpost)) (rcY rows) (rcW rows),
       List.ofFn (DR.drRCIF (rcD rows) (rcTr level ps rows) (rcPost rows) (rcPs ps rows)
          (DR.fitted (rcX rows) (β .cpre)) (DR.fitted (rcX rows) (β .cpost))
          (DR.fitted (rcX rows) (β .tpre)) (DR.fitted (rcX rows) (β .tpost)) (rcY rows) (rcW rows) (rcX rows)
          (inv (rcGram (armSel rows .cpre) (rcW rows) (rcX rows))) (inv (rcGram (armSel rows .cpost) (rcW rows) (rcX rows)))
          (inv (rcGram (armSel rows .tpre) (rcW rows) (rcX rows))) (inv (rcGram (armSel rows .tpost) (rcW rows) (rcX rows)))
          (fun a b => inv (rcInfo (rcPs ps rows) (rcW rows) (rcX rows)) a b * (rows.length : K)))) := by
  have hne : rows ≠ [] := by
    rintro rfl
    simpa [DR.mean] using hpos .d
  have hipw : (Method.dr ≠ .ipw) := by decide
  have sW : ∀ k, (rows.map (wRow level ps k)).sum / (rows.length : K) = DR.mean (locW level ps rows k) := fun k =>
    gsum_rows rows _ _ fun i => wRow_eq level ps rows k i
  have sE : ∀ e, (rows.map fun r => wRow level ps (wOf e) r * resRow .dr β e r).sum / (rows.length : K) =
      DR.mean fun i => locW level ps rows (wOf e) i * locR .dr β rows e i := fun e =>
    gsum_rows rows _ _ fun i => by rw [wRow_eq]; rfl
  have att : ∀ e, posOr (DR.mean (locW level ps rows (wOf e)))
      ((DR.mean fun i => locW level ps rows (wOf e) i * locR .dr β rows e i) / DR.mean (locW level ps rows (wOf e))) =
      DR.hmean (locW level ps rows (wOf e)) (locR .dr β rows e) := by
    intro e
    rw [posOr, if_pos (hpos _), hmean_eq]
  unfold cellDistRC
  rw [aggRC_eq, hrows, partStatsRC]
  simp only [if_neg hne, finalizeRC, Option.bind_some, List.length_eq_zero_iff, Option.map_some, if_neg hipw,
    Option.some.injEq]
  simp only [sW, sE, att, armGram_eq, rcInfo_eq]
  refine Prod.ext ?_ ?_
  · simp only [DR.drRC, DR.tradRC]
    show _ = _
    rfl
  simp only
  rw [gflatMap_rows, hrows, gmap_eq_ofFn]
  congr 1
  funext i
  have sV : ∀ v k, (rows.map fun r => vRow .dr level ps β v r * r.x k).sum / (rows.length : K) =
      DR.mean fun i => vRow .dr level ps β v rows[i] * rcX rows i k := fun v k => gsum_rows rows _ _ fun i => rfl
  have hp := fun k => (hpos k)
  have vt : (fun k => posOr (DR.mean (locW level ps rows .tpost))
      (-((rows.map fun r => vRow .dr level ps β .wtPost r * r.x k).sum / (rows.length : K)) /
        DR.mean (locW level ps rows .tpost))) =
      fun k => - DR.xmean (locW level ps rows .tpost) (DR.postK (rcPost rows)) (rcX rows) k := by
    funext k
    rw [posOr, if_pos (hpos _), sV, DR.xmean, neg_div]
    simp only [vRow, wRow_eq]
    rfl
  have vt0 : (fun k => posOr (DR.mean (locW level ps rows .tpre))
      (-((rows.map fun r => vRow .dr level ps β .wtPre r * r.x k).sum / (rows.length : K)) /
        DR.mean (locW level ps rows .tpre))) =
      fun k => - DR.xmean (locW level ps rows .tpre) (DR.preK (rcPost rows)) (rcX rows) k := by
    funext k
    rw [posOr, if_pos (hpos _), sV, DR.xmean, neg_div]
    simp only [vRow, wRow_eq]
    rfl
  have vc : (fun k => posOr (DR.mean (locW level ps rows .cpost))
      (-((rows.map fun r => vRow .dr level ps β .wcPostPost r * r.x k).sum / (rows.length : K)) /
        DR.mean (locW level ps rows .cpost))) =
      fun k => - DR.xmean (locW level ps rows .cpost) (DR.postK (rcPost rows)) (rcX rows) k := by
    funext k
    rw [posOr, if_pos (hpos _), sV, DR.xmean, neg_div]
    simp only [vRow, wRow_eq]
    rfl
  have vc0 : (fun k => posOr (DR.mean (locW level ps rows .cpre))
      (-((rows.map fun r => vRow .dr level ps β .wcPre1mp r * r.x k).sum / (rows.length : K)) /
        DR.mean (locW level ps rows .cpre))) =
      fun k => - DR.xmean (locW level ps rows .cpre) (DR.preK (rcPost rows)) (rcX rows) k := by
    funext k
    rw [posOr, if_pos (hpos _), sV, DR.xmean, neg_div]
    simp only [vRow, wRow_eq]
    rfl
  have mp1 : (fun k => if DR.mean (locW level ps rows .d) > 0 ∧ DR.mean (locW level ps rows .dt1) > 0 ∧
        DR.mean (locW level ps rows .dt0) > 0 then
      ((rows.map fun r => vRow .dr level ps β .wd r * r.x k).sum / (rows.length : K)) / DR.mean (locW level ps rows .d) -
      ((rows.map fun r => vRow .dr level ps β .wdt1 r * r.x k).sum / (rows.length : K)) / DR.mean (locW level ps rows .dt1)
      else 0) = fun k => DR.mean fun j => (locW level ps rows .d j / DR.mean (locW level ps rows .d) -
        locW level ps rows .dt1 j / DR.mean (locW level ps rows .dt1)) * rcX rows j k := by
    funext k
    rw [if_pos ⟨hpos _, hpos _, hpos _⟩, sV, sV]
    simp only [vRow, wRow_eq]
    exact moment_diff _ _ _ _ _ _
  have mp0 : (fun k => if DR.mean (locW level ps rows .d) > 0 ∧ DR.mean (locW level ps rows .dt1) > 0 ∧
        DR.mean (locW level ps rows .dt0) > 0 then
      ((rows.map fun r => vRow .dr level ps β .wd r * r.x k).sum / (rows.length : K)) / DR.mean (locW level ps rows .d) -
      ((rows.map fun r => vRow .dr level ps β .wdt0 r * r.x k).sum / (rows.length : K)) / DR.mean (locW level ps rows .dt0)
      else 0) = fun k => DR.mean fun j => (locW level ps rows .d j / DR.mean (locW level ps rows .d) -
        locW level ps rows .dt0 j / DR.mean (locW level ps rows .dt0)) * rcX rows j k := by
    funext k
    rw [if_pos ⟨hpos _, hpos _, hpos _⟩, sV, sV]
    simp only [vRow, wRow_eq]
    exact moment_diff _ _ _ _ _ _
  have cm : ∀ (e : E) (hE : e = .cpost ∨ e = .cpre) (vy vw : CV)
      (hy : ∀ r, vRow .dr level ps β vy r = wRow level ps (wOf e) r * (r.y - outCont .dr β r))
      (hw : ∀ r, vRow .dr level ps β vw r = wRow level ps (wOf e) r) (k : κ),
      posOr (DR.mean (locW level ps rows (wOf e)))
        (((rows.map fun r => vRow .dr level ps β vy r * r.x k).sum / (rows.length : K) -
          DR.hmean (locW level ps rows (wOf e)) (locR .dr β rows e) *
            (rows.map fun r => vRow .dr level ps β vw r * r.x k).sum / (rows.length : K)) /
          DR.mean (locW level ps rows (wOf e))) =
      DR.mean (fun j => (locW level ps rows (wOf e) j * (locR .dr β rows e j -
        DR.hmean (locW level ps rows (wOf e)) (locR .dr β rows e))) * rcX rows j k) /
        DR.mean (locW level ps rows (wOf e)) := by
    intro e hE vy vw hy hw k
    rw [posOr, if_pos (hpos _), mul_div_assoc, sV, sV, ← moment_cent]
    simp only [hy, hw, wRow_eq]
    congr 3
    funext j
    rcases hE with rfl | rfl <;> rfl
  have c1 := cm .cpost (Or.inl rfl) .wcPostY .wcPost (fun _ => rfl) (fun _ => rfl)
  have c0 := cm .cpre (Or.inr rfl) .wcPreY .wcPre (fun _ => rfl) (fun _ => rfl)
  simp only [wOf] at c1 c0
  simp only [wOf, vt, vt0, vc, vc0, mp1, mp0, c1, c0]
  unfold rowIFRC
  simp only [armTerm_eq .dr hipw]
  have L : ∀ (g : GlobalRC κ K) (hmw : ∀ k, g.mw k = DR.mean (locW level ps rows k))
      (ha : ∀ e, g.att e = DR.hmean (locW level ps rows (wOf e)) (locR .dr β rows e)) (e : E),
      leadRow .dr level ps β g e rows[i] = DR.lead (locW level ps rows (wOf e)) (locR .dr β rows e) i :=
    fun g hmw ha e => lead_eq .dr level ps β rows g e i (hmw _) (hpos _) (ha _)
  rw [L _ (fun _ => rfl) (fun _ => rfl) .tpost, L _ (fun _ => rfl) (fun _ => rfl) .tpre,
    L _ (fun _ => rfl) (fun _ => rfl) .cpost, L _ (fun _ => rfl) (fun _ => rfl) .cpre,
    L _ (fun _ => rfl) (fun _ => rfl) .dpost, L _ (fun _ => rfl) (fun _ => rfl) .dt1post,
    L _ (fun _ => rfl) (fun _ => rfl) .dpre, L _ (fun _ => rfl) (fun _ => rfl) .dt0pre]
  have P : ∀ (H : κ → κ → K) (v : κ → K), ∑ k, (rows[i].w * (dnum rows[i].d - ps rows[i].x)) * rows[i].x k * mulV H v k =
      DR.dot (DR.alrPS (rcD rows) (rcPs ps rows) (rcW rows) (rcX rows) H i) v := fun H v =>
    dotPS_mulV (rcD rows) (rcPs ps rows) (rcW rows) (rcX rows) H i v
  rw [P]
  unfold DR.drRCIF DR.tradRCIF
  simp only [dot_sub_l]
  show _ = _
  simp only [wOf]
  rfl

/-- C46 (inverse probability weighting, repeated cross-sections): the same for `std_ipw_did_rc`. -/
theorem C46_rc_ipw (inv : (κ → κ → K) → κ → κ → K) (level : K) (ps : (κ → K) → K) (β : Arm → κ → K)
    (parts : List (List (CRow κ K))) (rows : List (CRow κ K)) (hrows : parts.flatten = rows)
    (hpos : ∀ k, 0 < DR.mean (locW level ps rows k)) :
    cellDistRC .ipw inv level ps β parts = some
      (DR.ipwRC (rcD rows) (rcTr level ps rows) (rcPost rows) (rcPs ps rows) (rcY rows) (rcW rows),
       List.ofFn (DR.ipwRCIF (rcD rows) (rcTr level ps rows) (rcPost rows) (rcPs ps rows) (rcY rows) (rcW rows)
          (rcX rows) (fun a b => inv (rcInfo (rcPs ps rows) (rcW rows) (rcX rows)) a b * (rows.length : K)))) := by
  have hne : rows ≠ [] := by
    rintro rfl
    simpa [DR.mean] using hpos .d
  have sW : ∀ k, (rows.map (wRow level ps k)).sum / (rows.length : K) = DR.mean (locW level ps rows k) := fun k =>
    gsum_rows rows _ _ fun i => wRow_eq level ps rows k i
  have sE : ∀ e, (rows.map fun r => wRow level ps (wOf e) r * resRow .ipw β e r).sum / (rows.length : K) =
      DR.mean fun i => locW level ps rows (wOf e) i * locR .ipw β rows e i := fun e =>
    gsum_rows rows _ _ fun i => by rw [wRow_eq]; rfl
  have att : ∀ e, posOr (DR.mean (locW level ps rows (wOf e)))
      ((DR.mean fun i => locW level ps rows (wOf e) i * locR .ipw β rows e i) / DR.mean (locW level ps rows (wOf e))) =
      DR.hmean (locW level ps rows (wOf e)) (locR .ipw β rows e) := by
    intro e
    rw [posOr, if_pos (hpos _), hmean_eq]
  have zero : ∀ e, (e = .dpost ∨ e = .dt1post ∨ e = .dpre ∨ e = .dt0pre) → locR .ipw β rows e = fun _ => (0 : K) := by
    intro e he
    funext j
    rcases he with rfl | rfl | rfl | rfl <;> simp [locR, resRow, outC]
  have yv : ∀ e, (e = .tpre ∨ e = .tpost ∨ e = .cpre ∨ e = .cpost) → locR .ipw β rows e = rcY rows := by
    intro e he
    funext j
    rcases he with rfl | rfl | rfl | rfl <;> simp [locR, resRow, outCont, outC, rcY]
  have h0 : ∀ w : Fin rows.length → K, DR.hmean w (fun _ => (0 : K)) = 0 := by
    intro w; simp [DR.hmean, DR.mean]
  have l0 : ∀ (w : Fin rows.length → K) i, DR.lead w (fun _ => (0 : K)) i = 0 := by
    intro w i; simp [DR.lead, h0]
  unfold cellDistRC
  rw [aggRC_eq, hrows, partStatsRC]
  simp only [if_neg hne, finalizeRC, Option.bind_some, List.length_eq_zero_iff, Option.map_some, if_true,
    Option.some.injEq]
  simp only [sW, sE, att, armGram_eq, rcInfo_eq]
  refine Prod.ext ?_ ?_
  · simp only [zero .dpost (by simp), zero .dt1post (by simp), zero .dpre (by simp), zero .dt0pre (by simp), h0,
      yv .tpre (by simp), yv .tpost (by simp), yv .cpre (by simp), yv .cpost (by simp), sub_zero, add_zero]
    rfl
  simp only
  rw [gflatMap_rows, hrows, gmap_eq_ofFn]
  congr 1
  funext i
  have sV : ∀ v k, (rows.map fun r => vRow .ipw level ps β v r * r.x k).sum / (rows.length : K) =
      DR.mean fun i => vRow .ipw level ps β v rows[i] * rcX rows i k := fun v k => gsum_rows rows _ _ fun i => rfl
  have cm : ∀ (e : E) (hE : e = .cpost ∨ e = .cpre) (vy vw : CV)
      (hy : ∀ r, vRow .ipw level ps β vy r = wRow level ps (wOf e) r * (r.y - outCont .ipw β r))
      (hw : ∀ r, vRow .ipw level ps β vw r = wRow level ps (wOf e) r) (k : κ),
      posOr (DR.mean (locW level ps rows (wOf e)))
        (((rows.map fun r => vRow .ipw level ps β vy r * r.x k).sum / (rows.length : K) -
          DR.hmean (locW level ps rows (wOf e)) (locR .ipw β rows e) *
            (rows.map fun r => vRow .ipw level ps β vw r * r.x k).sum / (rows.length : K)) /
          DR.mean (locW level ps rows (wOf e))) =
      DR.mean (fun j => (locW level ps rows (wOf e) j * (locR .ipw β rows e j -
        DR.hmean (locW level ps rows (wOf e)) (locR .ipw β rows e))) * rcX rows j k) /
        DR.mean (locW level ps rows (wOf e)) := by
    intro e hE vy vw hy hw k
    rw [posOr, if_pos (hpos _), mul_div_assoc, sV, sV, ← moment_cent]
    simp only [hy, hw, wRow_eq]
    congr 3
    funext j
    rcases hE with rfl | rfl <;> rfl
  have c1 := cm .cpost (Or.inl rfl) .wcPostY .wcPost (fun _ => rfl) (fun _ => rfl)
  have c0 := cm .cpre (Or.inr rfl) .wcPreY .wcPre (fun _ => rfl) (fun _ => rfl)
  simp only [wOf] at c1 c0
  simp only [wOf, c1, c0]
  unfold rowIFRC
  have A : ∀ a v, armTerm .ipw β a v rows[i] = 0 := fun a v => by simp [armTerm]
  simp only [A]
  have L : ∀ (g : GlobalRC κ K) (hmw : ∀ k, g.mw k = DR.mean (locW level ps rows k))
      (ha : ∀ e, g.att e = DR.hmean (locW level ps rows (wOf e)) (locR .ipw β rows e)) (e : E),
      leadRow .ipw level ps β g e rows[i] = DR.lead (locW level ps rows (wOf e)) (locR .ipw β rows e) i :=
    fun g hmw ha e => lead_eq .ipw level ps β rows g e i (hmw _) (hpos _) (ha _)
  rw [L _ (fun _ => rfl) (fun _ => rfl) .tpost, L _ (fun _ => rfl) (fun _ => rfl) .tpre,
    L _ (fun _ => rfl) (fun _ => rfl) .cpost, L _ (fun _ => rfl) (fun _ => rfl) .cpre,
    L _ (fun _ => rfl) (fun _ => rfl) .dpost, L _ (fun _ => rfl) (fun _ => rfl) .dt1post,
    L _ (fun _ => rfl) (fun _ => rfl) .dpre, L _ (fun _ => rfl) (fun _ => rfl) .dt0pre]
  have P : ∀ (H : κ → κ → K) (v : κ → K), ∑ k, (rows[i].w * (dnum rows[i].d - ps rows[i].x)) * rows[i].x k * mulV H v k =
      DR.dot (DR.alrPS (rcD rows) (rcPs ps rows) (rcW rows) (rcX rows) H i) v := fun H v =>
    dotPS_mulV (rcD rows) (rcPs ps rows) (rcW rows) (rcX rows) H i v
  rw [P]
  simp only [zero .dpost (by simp), zero .dt1post (by simp), zero .dpre (by simp), zero .dt0pre (by simp), l0,
      yv .tpre (by simp), yv .tpost (by simp), yv .cpre (by simp), yv .cpost (by simp), sub_zero, add_zero]
  rfl

/-! ## Outcome regression -/

def rowStatsReg (β : Arm → κ → K) (r : CRow κ K) : Stats RS Unit Arm κ K :=
  (fun s => match s with
      | .wTpre => r.w * dnum r.d * (1 - dnum r.post)
      | .wTpost => r.w * dnum r.d * dnum r.post
      | .wD => r.w * dnum r.d
      | .rTpre => r.w * dnum r.d * (1 - dnum r.post) * r.y
      | .rTpost => r.w * dnum r.d * dnum r.post * r.y
      | .rC => r.w * dnum r.d * dOut β r,
   fun _ k => r.w * dnum r.d * r.x k,
   fun c a b => (if armMask c r then 1 else 0) * ((r.x a * r.w) * r.x b),
   1)

theorem partStatsReg_eq (β : Arm → κ → K) (p : List (CRow κ K)) :
    partStatsReg β p = contribution (fun _ => true) (rowStatsReg β) p := by
  unfold partStatsReg contribution
  simp only [List.filter_true]
  by_cases h : p = []
  · rw [if_pos h, if_pos h]
  · rw [if_neg h, if_neg h, stats_sum]
    congr 1
    refine Prod.ext ?_ (Prod.ext ?_ (Prod.ext ?_ ?_))
    · funext s; cases s <;> rfl
    · funext v k; rfl
    · funext q a b
      simp only [rowStatsReg, filter_sum]
    · simp [rowStatsReg]

theorem aggReg_eq (β : Arm → κ → K) (parts : List (List (CRow κ K))) :
    (parts.map (partStatsReg β)).foldl optAdd none = partStatsReg β parts.flatten := by
  rw [(C44_driver_reductions _).2]
  have : partStatsReg β = contribution (fun _ => true) (rowStatsReg (K := K) (κ := κ) β) := by
    funext p; exact partStatsReg_eq β p
  rw [this, totalOf_contribution]

/-- C46 (outcome regression, repeated cross-sections): the same for `reg_did_rc`. -/
theorem C46_rc_reg (inv : (κ → κ → K) → κ → κ → K) (β : Arm → κ → K)
    (parts : List (List (CRow κ K))) (rows : List (CRow κ K)) (hrows : parts.flatten = rows)
    (h0 : 0 < DR.mean fun i => rcW rows i * DR.ind (rcD rows) i * DR.preK (rcPost rows) i)
    (h1 : 0 < DR.mean fun i => rcW rows i * DR.ind (rcD rows) i * DR.postK (rcPost rows) i)
    (hD : 0 < DR.mean fun i => rcW rows i * DR.ind (rcD rows) i) :
    cellDistReg inv β parts = some
      (DR.regRC (rcD rows) (rcPost rows) (DR.fitted (rcX rows) (β .cpre)) (DR.fitted (rcX rows) (β .cpost))
          (rcY rows) (rcW rows),
       List.ofFn (DR.regRCIF (rcD rows) (rcPost rows) (DR.fitted (rcX rows) (β .cpre))
          (DR.fitted (rcX rows) (β .cpost)) (rcY rows) (rcW rows) (rcX rows)
          (inv (rcGram (armSel rows .cpre) (rcW rows) (rcX rows)))
          (inv (rcGram (armSel rows .cpost) (rcW rows) (rcX rows))))) := by
  have hne : rows ≠ [] := by
    rintro rfl
    simp [DR.mean] at hD
  have hipw : (Method.reg ≠ .ipw) := by decide
  have s0 := gsum_rows rows (fun r => r.w * dnum r.d * (1 - dnum r.post))
    (fun i => rcW rows i * DR.ind (rcD rows) i * DR.preK (rcPost rows) i) (fun i => rfl)
  have s1 := gsum_rows rows (fun r => r.w * dnum r.d * dnum r.post)
    (fun i => rcW rows i * DR.ind (rcD rows) i * DR.postK (rcPost rows) i) (fun i => rfl)
  have sD := gsum_rows rows (fun r => r.w * dnum r.d) (fun i => rcW rows i * DR.ind (rcD rows) i) (fun i => rfl)
  have r0 := gsum_rows rows (fun r => r.w * dnum r.d * (1 - dnum r.post) * r.y)
    (fun i => rcW rows i * DR.ind (rcD rows) i * DR.preK (rcPost rows) i * rcY rows i) (fun i => rfl)
  have r1 := gsum_rows rows (fun r => r.w * dnum r.d * dnum r.post * r.y)
    (fun i => rcW rows i * DR.ind (rcD rows) i * DR.postK (rcPost rows) i * rcY rows i) (fun i => rfl)
  have rD := gsum_rows rows (fun r => r.w * dnum r.d * dOut β r)
    (fun i => rcW rows i * DR.ind (rcD rows) i *
      (DR.fitted (rcX rows) (β .cpost) i - DR.fitted (rcX rows) (β .cpre) i)) (fun i => rfl)
  have sX : ∀ k, (rows.map fun r => r.w * dnum r.d * r.x k).sum / (rows.length : K) =
      DR.mean fun i => rcW rows i * DR.ind (rcD rows) i * rcX rows i k := fun k => gsum_rows rows _ _ fun i => rfl
  unfold cellDistReg
  rw [aggReg_eq, hrows, partStatsReg]
  simp only [if_neg hne, finalizeReg, Option.bind_some, List.length_eq_zero_iff, Option.map_some,
    Option.some.injEq]
  simp only [s0, s1, sD, r0, r1, rD, sX, armGram_eq, posOr, gt_iff_lt, if_pos h0, if_pos h1, if_pos hD]
  refine Prod.ext rfl ?_
  simp only
  rw [gflatMap_rows, hrows, gmap_eq_ofFn]
  congr 1
  funext i
  unfold rowIFReg
  simp only [armTerm_eq .reg hipw, posOr, gt_iff_lt, if_pos h0, if_pos h1, if_pos hD]
  rfl

/-- Two treated and two comparison observations per period in three partitions. -/
def exRC : List (List (CRow (Fin 1) ℚ)) :=
  [[⟨fun _ => 1, true, true, 7, 1⟩, ⟨fun _ => 1, true, false, 2, 1⟩, ⟨fun _ => 1, false, true, 4, 1⟩], [],
   [⟨fun _ => 1, false, false, 3, 1⟩, ⟨fun _ => 1, false, true, 6, 3⟩]]

def exβ (a : Arm) (_ : Fin 1) : ℚ := match a with
  | .cpre => 3
  | .cpost => 11 / 2
  | .tpre => 2
  | .tpost => 7

example : (cellDistRC .dr (fun A a b => 1 / A a b) 1 (fun _ => 1 / 2) exβ exRC).map Prod.fst = some (5 - 5 / 2) ∧
    (cellDistRC .ipw (fun A a b => 1 / A a b) 1 (fun _ => 1 / 2) exβ exRC).map Prod.fst = some (5 - 5 / 2) ∧
    (cellDistReg (fun A a b => 1 / A a b) exβ exRC).map Prod.fst = some (5 - 5 / 2) := by decide +kernel

example : ∀ k ∈ [W.tpre, .tpost, .cpre, .cpost, .d, .dt1, .dt0],
    0 < DR.mean (locW 1 (fun _ => 1 / 2) exRC.flatten k) := by decide +kernel

end Verif.Dist
