import Verif.Asym.Staggered
import Verif.Agg.Props3

set_option linter.unusedSectionVars false
set_option linter.unusedSimpArgs false

/-!
# C260, C261: aggregates of `att_gt` cells in large samples, with estimated cohort shares
-/

namespace Verif.Asym

open MeasureTheory ProbabilityTheory Filter Topology Verif.Honest Verif.DR Verif.Prep

variable {Ω 𝓧 κ : Type*} [MeasurableSpace Ω] [MeasurableSpace 𝓧] [Fintype κ] [DecidableEq κ]

/-! ## Specification -/

/-- Population share of a cohort, in units of weight. -/
noncomputable def popShare (P : Measure Ω) (X : ℕ → Ω → 𝓧) (G : 𝓧 → WithTop ℤ) (w : 𝓧 → ℝ) (g : ℤ) : ℝ := pop P X fun z => w z * isG G g z

/-- Mean of `f` over a list, an item `c` weighted by the share of cohort `γ c`. -/
noncomputable def shareMean {α : Type*} (P : Measure Ω) (X : ℕ → Ω → 𝓧) (G : 𝓧 → WithTop ℤ) (w : 𝓧 → ℝ) (γ : α → ℤ) (f : α → ℝ) (L : List α) : ℝ :=
  (L.map fun c => popShare P X G w (γ c) * f c).sum / (L.map fun c => popShare P X G w (γ c)).sum

/-- Influence of a unit on that mean, when `θ` are the means and `ψ` the influences of the items: through the items and through the cohort shares. -/
noncomputable def shareInfluence {α : Type*} (P : Measure Ω) (X : ℕ → Ω → 𝓧) (G : 𝓧 → WithTop ℤ) (w : 𝓧 → ℝ) (γ : α → ℤ) (θ : α → ℝ) (ψ : α → 𝓧 → ℝ) (L : List α)
    (z : 𝓧) : ℝ :=
  ((L.map fun c => popShare P X G w (γ c) * ψ c z).sum + (L.map fun c => w z * isG G (γ c) z * (θ c - shareMean P X G w γ θ L)).sum) /
    (L.map fun c => popShare P X G w (γ c)).sum

/-- The same for the effects of a list of cells (cohort, period). -/
noncomputable def aggATT (P : Measure Ω) (X : ℕ → Ω → 𝓧) (G : 𝓧 → WithTop ℤ) (y y0 : 𝓧 → ℤ → ℝ) (w : 𝓧 → ℝ) (D : List (ℤ × ℤ)) : ℝ :=
  shareMean P X G w Prod.fst (fun c => cellATT P X G y y0 w c.1 c.2) D

noncomputable def aggInfluence (P : Measure Ω) (X : ℕ → Ω → 𝓧) (G : 𝓧 → WithTop ℤ) (y y0 : 𝓧 → ℤ → ℝ) (w : 𝓧 → ℝ) (cg : ControlGroup) (a : ℤ)
    (bs : ℤ × ℤ → ℤ) (xs : ℤ × ℤ → 𝓧 → κ → ℝ) (βs : ℤ × ℤ → κ → ℝ) (D : List (ℤ × ℤ)) (z : 𝓧) : ℝ :=
  shareInfluence P X G w Prod.fst (fun c => cellATT P X G y y0 w c.1 c.2) (fun c => cellInfluence P X G y y0 w cg a c.1 c.2 (bs c) (xs c) (βs c)) D z

/-! ## Model -/

/-- The cells handed to `aggte`: estimate and influence function per (cohort, period); a cell that is not estimated is absent (`dropna=True`),
`compute_aggte.py:103-138`. -/
noncomputable def cellTable (G : 𝓧 → WithTop ℤ) (y : 𝓧 → ℤ → ℝ) (w : 𝓧 → ℝ) (cg : ControlGroup) (a : ℤ) (bs : ℤ × ℤ → ℤ) (xs : ℤ × ℤ → 𝓧 → κ → ℝ)
    (D : List (ℤ × ℤ)) (X : ℕ → Ω → 𝓧) (n : ℕ) (ω : Ω) : List (Agg.Cell (Fin n) ℝ) :=
  D.filterMap fun c => (attEst G y w cg a c.1 c.2 (bs c) (xs c) X n ω).map fun v => ⟨c.1, c.2, v, attInf G y w cg a c.1 c.2 (bs c) (xs c) X n ω⟩

/-! ## Lists and sums -/

theorem filterMap_filter {α β : Type*} (D : List α) (F : α → Option β) (F' : α → β) (p : β → Bool) (q : α → Bool) (h1 : ∀ c ∈ D, q c = true → F c = some (F' c))
    (h2 : ∀ c v, F c = some v → p v = q c) : (D.filterMap F).filter p = (D.filter q).map F' := by
  induction D with
  | nil => rfl
  | cons c D ih =>
    have ih := ih fun c hc => h1 c (List.mem_cons_of_mem _ hc)
    rw [List.filterMap_cons, List.filter_cons]
    by_cases hq : q c = true
    · rw [h1 c (List.mem_cons_self ..) hq, if_pos hq, List.map_cons]
      dsimp only
      rw [List.filter_cons, if_pos (by rw [h2 c _ (h1 c (List.mem_cons_self ..) hq)]; exact hq), ih]
    · rw [if_neg hq]
      cases hF : F c with
      | none => exact ih
      | some v =>
        dsimp only
        rw [List.filter_cons, if_neg (by rw [h2 c v hF]; exact hq), ih]

theorem share_avg (G : 𝓧 → WithTop ℤ) (w : 𝓧 → ℝ) (X : ℕ → Ω → 𝓧) (n : ℕ) (ω : Ω) (g : ℤ) :
    Agg.share (fun i : Fin n => G (X i ω)) (fun i => w (X i ω)) g = avg X (fun z => w z * isG G g z) n ω := by
  rw [← mean_eq]
  unfold Agg.share DR.mean
  congr 1
  refine Finset.sum_congr rfl fun i _ => ?_
  unfold isG
  dsimp only
  split_ifs <;> simp

/-! ## Share-weighted means over a list -/

section
variable {α : Type*} (L : List α) (γ : α → ℤ) (G : 𝓧 → WithTop ℤ) (w : 𝓧 → ℝ) (X : ℕ → Ω → 𝓧)

/-- Share variable of the `k`-th item. -/
def eOf (k : Fin L.length) (z : 𝓧) : ℝ := w z * isG G (γ L[k.1]) z

/-- Estimate and influence function of the mean. -/
noncomputable def wEst (est : α → ℕ → Ω → ℝ) (n : ℕ) (ω : Ω) : ℝ := ∑ k, ewt X (eOf L γ G w) n ω k * est L[k.1] n ω

noncomputable def wInf (est : α → ℕ → Ω → ℝ) (inf : α → (n : ℕ) → Ω → Fin n → ℝ) (n : ℕ) (ω : Ω) (i : Fin n) : ℝ :=
  ∑ k, ewt X (eOf L γ G w) n ω k * inf L[k.1] n ω i +
    ∑ k, (eOf L γ G w k (X i ω) / ∑ j, avg X (eOf L γ G w j) n ω - avg X (eOf L γ G w k) n ω * (∑ j, eOf L γ G w j (X i ω)) /
      (∑ j, avg X (eOf L γ G w j) n ω) ^ 2) * est L[k.1] n ω

/-- Samples on which all items are good and the shares do not sum to zero. -/
def wGood (H : α → ℕ → Set Ω) (n : ℕ) : Set Ω := (⋂ k : Fin L.length, H L[k.1] n) ∩ {ω | ∑ j, avg X (eOf L γ G w j) n ω ≠ 0}

variable {L γ G w X}

theorem wGood_mem {H : α → ℕ → Set Ω} {n : ℕ} {ω : Ω} (h : ω ∈ wGood L γ G w X H n) : ∀ c ∈ L, ω ∈ H c n := fun c hc => by
  obtain ⟨k, hk, rfl⟩ := List.getElem_of_mem hc
  exact Set.mem_iInter.1 h.1 ⟨k, hk⟩

section
variable {n : ℕ} {ω : Ω} {cs : List (Agg.Cell (Fin n) ℝ)} {p : Agg.Cell (Fin n) ℝ → Bool} {τ : α → ℤ} {est : α → ℕ → Ω → ℝ} {inf : α → (n : ℕ) → Ω → Fin n → ℝ}
  (h : cs.filter p = L.map fun c => ⟨γ c, τ c, est c n ω, inf c n ω⟩)
include h

theorem table_total : Agg.totalShare (fun i : Fin n => G (X i ω)) (fun i => w (X i ω)) cs p = ∑ j, avg X (eOf L γ G w j) n ω := by
  unfold Agg.totalShare eOf
  rw [h, List.map_map, Fin.sum_univ_fun_getElem L fun c => avg X (fun z => w z * isG G (γ c) z) n ω]
  simp only [Function.comp_def, share_avg]

theorem table_mean : Agg.weightedMean (fun i : Fin n => G (X i ω)) (fun i => w (X i ω)) cs p = wEst L γ G w X est n ω := by
  unfold Agg.weightedMean wEst ewt
  rw [table_total h, h, List.map_map]
  simp only [Function.comp_def, share_avg]
  rw [← Fin.sum_univ_fun_getElem L fun c => avg X (fun z => w z * isG G (γ c) z) n ω * est c n ω, Finset.sum_div]
  exact Finset.sum_congr rfl fun k _ => by unfold eOf; ring

theorem table_inf (hne : ∑ j, avg X (eOf L γ G w j) n ω ≠ 0) (i : Fin n) :
    Agg.meanIF (fun i : Fin n => G (X i ω)) (fun i => w (X i ω)) cs p i = wInf L γ G w X est inf n ω i := by
  have hS := table_total (G := G) (w := w) (X := X) h
  have hcoh : ((Agg.cohorts cs p).map (Agg.share (fun i : Fin n => G (X i ω)) fun i => w (X i ω))).sum = ∑ j, avg X (eOf L γ G w j) n ω := by
    rw [← hS]
    unfold Agg.cohorts Agg.totalShare
    rw [List.map_map]
    rfl
  have he : ∀ g : ℤ, (if G (X i ω) = (g : WithTop ℤ) then w (X i ω) else 0) = w (X i ω) * isG G g (X i ω) := fun g => by
    unfold isG
    split_ifs <;> simp
  have herr : ((Agg.cohorts cs p).map fun h : ℤ => (if G (X i ω) = (h : WithTop ℤ) then w (X i ω) else 0) -
      Agg.share (fun i : Fin n => G (X i ω)) (fun i => w (X i ω)) h).sum = ∑ j, eOf L γ G w j (X i ω) - ∑ j, avg X (eOf L γ G w j) n ω := by
    unfold Agg.cohorts
    rw [h, List.map_map, List.map_map]
    simp only [Function.comp_def, share_avg, he]
    rw [← Fin.sum_univ_fun_getElem L fun c => w (X i ω) * isG G (γ c) (X i ω) - avg X (fun z => w z * isG G (γ c) z) n ω, Finset.sum_sub_distrib]
    rfl
  unfold Agg.meanIF wInf ewt
  rw [hS, h, List.map_map, List.map_map]
  simp only [Function.comp_def, share_avg]
  rw [← Fin.sum_univ_fun_getElem L fun c => avg X (fun z => w z * isG G (γ c) z) n ω * inf c n ω i,
    ← Fin.sum_univ_fun_getElem L fun c => Agg.shareIF (fun i : Fin n => G (X i ω)) (fun i => w (X i ω)) (Agg.cohorts cs p) (γ c) i * est c n ω, Finset.sum_div]
  congr 1
  · exact Finset.sum_congr rfl fun k _ => by unfold eOf; ring
  · refine Finset.sum_congr rfl fun k _ => ?_
    congr 1
    unfold Agg.shareIF
    dsimp only
    rw [hcoh, herr, share_avg, he]
    have e1 : eOf L γ G w k (X i ω) = w (X i ω) * isG G (γ L[k.1]) (X i ω) := rfl
    have e2 : avg X (eOf L γ G w k) n ω = avg X (fun z => w z * isG G (γ L[k.1]) z) n ω := rfl
    rw [e1, e2]
    field_simp
    ring

end

section
variable {P : Measure Ω} [IsProbabilityMeasure P] (hX : Sampling P X)
include hX

theorem share_regular {est : α → ℕ → Ω → ℝ} {inf : α → (n : ℕ) → Ω → Fin n → ℝ} {θ : α → ℝ} {H : α → ℕ → Set Ω} {ψ : α → 𝓧 → ℝ}
    (h : ∀ c ∈ L, Regular P X (est c) (inf c) (θ c) (H c) (ψ c)) (h2 : ∀ c ∈ L, SqInt P X fun z => w z * isG G (γ c) z) (h3 : ∀ c ∈ L, 0 < popShare P X G w (γ c))
    (hL : L ≠ []) : Regular P X (wEst L γ G w X est) (wInf L γ G w X est inf) (shareMean P X G w γ θ L) (wGood L γ G w X H) (shareInfluence P X G w γ θ ψ L) := by
  have hS : 0 < (L.map fun c => popShare P X G w (γ c)).sum := by
    refine List.sum_pos _ (fun v hv => ?_) (by simpa using hL)
    obtain ⟨c, hc, rfl⟩ := List.mem_map.1 hv
    exact h3 c hc
  have hpop : ∀ k, pop P X (eOf L γ G w k) = popShare P X G w (γ L[k.1]) := fun k => rfl
  have htot : ∑ k, pop P X (eOf L γ G w k) = (L.map fun c => popShare P X G w (γ c)).sum := by
    simp only [hpop]
    exact Fin.sum_univ_fun_getElem L fun c => popShare P X G w (γ c)
  have := Regular.weighted hX (K := Fin L.length) (fun k => h _ (List.getElem_mem k.2)) (eOf L γ G w) (fun k => h2 _ (List.getElem_mem k.2)) (by rw [htot]; exact hS.ne')
  have hθ : ∑ k : Fin L.length, pwt P X (eOf L γ G w) k * θ L[k.1] = shareMean P X G w γ θ L := by
    unfold shareMean pwt
    rw [htot, ← Fin.sum_univ_fun_getElem L fun c => popShare P X G w (γ c) * θ c, Finset.sum_div]
    exact Finset.sum_congr rfl fun k _ => by rw [hpop]; ring
  have hψ : shareInfluence P X G w γ θ ψ L = fun z => ∑ k : Fin L.length, pwt P X (eOf L γ G w) k * ψ L[k.1] z +
      (∑ k, eOf L γ G w k z * (θ L[k.1] - ∑ j : Fin L.length, pwt P X (eOf L γ G w) j * θ L[j.1])) / ∑ j, pop P X (eOf L γ G w j) := by
    funext z
    unfold shareInfluence
    rw [hθ, htot, add_div, ← Fin.sum_univ_fun_getElem L fun c => popShare P X G w (γ c) * ψ c z,
      ← Fin.sum_univ_fun_getElem L fun c => w z * isG G (γ c) z * (θ c - shareMean P X G w γ θ L), Finset.sum_div]
    congr 1
    refine Finset.sum_congr rfl fun k _ => ?_
    rw [pwt, htot, hpop]
    ring
  rw [hψ, ← hθ]
  exact this

/-- Plain means over a list of regular estimators. -/
theorem list_regular {est : α → ℕ → Ω → ℝ} {inf : α → (n : ℕ) → Ω → Fin n → ℝ} {θ : α → ℝ} {H : α → ℕ → Set Ω} {ψ : α → 𝓧 → ℝ}
    (h : ∀ c ∈ L, Regular P X (est c) (inf c) (θ c) (H c) (ψ c)) :
    Regular P X (fun n ω => Agg.plainMean (L.map fun c => est c n ω)) (fun n ω i => Agg.plainMean (L.map fun c => inf c n ω i)) (Agg.plainMean (L.map θ))
      (fun n => ⋂ k : Fin L.length, H L[k.1] n) fun z => Agg.plainMean (L.map fun c => ψ c z) := by
  have := Regular.fixed hX (K := Fin L.length) (fun k => h _ (List.getElem_mem k.2)) fun _ => (1 : ℝ) / L.length
  have e : ∀ f : α → ℝ, Agg.plainMean (L.map f) = ∑ k : Fin L.length, (1 : ℝ) / L.length * f L[k.1] := by
    intro f
    unfold Agg.plainMean
    rw [← Finset.mul_sum, Fin.sum_univ_fun_getElem L f, List.length_map, one_div, div_eq_inv_mul]
  simp only [e]
  exact this

omit hX in
theorem list_mem {H : α → ℕ → Set Ω} {n : ℕ} {ω : Ω} (h : ω ∈ ⋂ k : Fin L.length, H L[k.1] n) : ∀ c ∈ L, ω ∈ H c n := fun c hc => by
  obtain ⟨k, hk, rfl⟩ := List.getElem_of_mem hc
  exact Set.mem_iInter.1 h ⟨k, hk⟩

end

end

/-! ## Reported rows -/

/-- An estimate with its influence function, absent when the estimate is NaN. -/
def repOf {n : ℕ} (att : Option ℝ) (psi : Fin n → ℝ) : Option (ℝ × (Fin n → ℝ)) := att.map fun v => (v, psi)

/-- The row of the results with a given label. -/
def rowOf {n : ℕ} (effs : List (Agg.Eff (Fin n) ℝ)) (l : ℤ) : Option (ℝ × (Fin n → ℝ)) := (effs.find? fun r => decide (r.label = l)).bind fun r => repOf r.att r.psi

theorem rowOf_eq {n : ℕ} {effs : List (Agg.Eff (Fin n) ℝ)} {l : ℤ} {v : ℝ} {psi : Fin n → ℝ} (h1 : ∃ r ∈ effs, r.label = l)
    (h2 : ∀ r ∈ effs, r.label = l → r.att = some v ∧ r.psi = psi) : rowOf effs l = some (v, psi) := by
  unfold rowOf
  cases hf : effs.find? fun r => decide (r.label = l) with
  | none =>
    obtain ⟨r, hr, hl⟩ := h1
    have := List.find?_eq_none.1 hf r hr
    simp [hl] at this
  | some r =>
    obtain ⟨e1, e2⟩ := h2 r (List.mem_of_find?_eq_some hf) (by simpa using List.find?_some hf)
    simp [repOf, e1, e2]

theorem pairwise_eq {l l' : List ℤ} (h : l.Pairwise (· < ·)) (h' : l'.Pairwise (· < ·)) (hm : ∀ e, e ∈ l ↔ e ∈ l') : l = l' :=
  List.Perm.eq_of_pairwise (fun a b _ _ h1 h2 => absurd h1 (not_lt.2 h2.le)) h h'
    ((List.perm_ext_iff_of_nodup (h.imp fun h => h.ne) (h'.imp fun h => h.ne)).2 hm)

/-! ## C260: the reported effects -/

/-- Cells of the post-treatment periods, of one event time, one calendar period, one cohort. -/
def postCells (D : List (ℤ × ℤ)) : List (ℤ × ℤ) := D.filter fun c => decide (c.1 ≤ c.2)
def eventCells (D : List (ℤ × ℤ)) (e : ℤ) : List (ℤ × ℤ) := D.filter fun c => decide (c.2 - c.1 = e)
def periodCells (D : List (ℤ × ℤ)) (t : ℤ) : List (ℤ × ℤ) := D.filter fun c => decide (c.2 = t ∧ c.1 ≤ t)
def cohortCells (D : List (ℤ × ℤ)) (g : ℤ) : List (ℤ × ℤ) := D.filter fun c => decide (c.1 = g ∧ g ≤ c.2)

/-- Estimate of a cell, and its good samples. -/
noncomputable def cEst (G : 𝓧 → WithTop ℤ) (y : 𝓧 → ℤ → ℝ) (w : 𝓧 → ℝ) (cg : ControlGroup) (a : ℤ) (bs : ℤ × ℤ → ℤ) (xs : ℤ × ℤ → 𝓧 → κ → ℝ) (X : ℕ → Ω → 𝓧)
    (c : ℤ × ℤ) (n : ℕ) (ω : Ω) : ℝ := (attEst G y w cg a c.1 c.2 (bs c) (xs c) X n ω).getD 0

noncomputable def cInf (G : 𝓧 → WithTop ℤ) (y : 𝓧 → ℤ → ℝ) (w : 𝓧 → ℝ) (cg : ControlGroup) (a : ℤ) (bs : ℤ × ℤ → ℤ) (xs : ℤ × ℤ → 𝓧 → κ → ℝ) (X : ℕ → Ω → 𝓧)
    (c : ℤ × ℤ) (n : ℕ) (ω : Ω) : Fin n → ℝ := attInf G y w cg a c.1 c.2 (bs c) (xs c) X n ω

def cGood (G : 𝓧 → WithTop ℤ) (y : 𝓧 → ℤ → ℝ) (w : 𝓧 → ℝ) (cg : ControlGroup) (a : ℤ) (bs : ℤ × ℤ → ℤ) (xs : ℤ × ℤ → 𝓧 → κ → ℝ) (X : ℕ → Ω → 𝓧)
    (c : ℤ × ℤ) (n : ℕ) : Set Ω := cellGood G y w cg a c.1 c.2 (bs c) (xs c) X n

section
variable {P : Measure Ω} [IsProbabilityMeasure P] {X : ℕ → Ω → 𝓧} (hX : Sampling P X) {G : 𝓧 → WithTop ℤ} {y y0 : 𝓧 → ℤ → ℝ} {w : 𝓧 → ℝ} {cg : ControlGroup}
  {a : ℤ} {bs : ℤ × ℤ → ℤ} {xs : ℤ × ℤ → 𝓧 → κ → ℝ} {βs : ℤ × ℤ → κ → ℝ} {D : List (ℤ × ℤ)}
include hX

theorem c_regular {c : ℤ × ℤ} (hC : CellOK P X G y y0 w cg a c.1 c.2 (bs c) (xs c) (βs c)) :
    Regular P X (cEst G y w cg a bs xs X c) (cInf G y w cg a bs xs X c) (cellATT P X G y y0 w c.1 c.2) (cGood G y w cg a bs xs X c)
      (cellInfluence P X G y y0 w cg a c.1 c.2 (bs c) (xs c) (βs c)) := cell_regular hX hC

theorem c_sq {c : ℤ × ℤ} (hC : CellOK P X G y y0 w cg a c.1 c.2 (bs c) (xs c) (βs c)) : SqInt P X fun z => w z * isG G c.1 z := by
  have hm : Measurable (isG G c.1) := by
    unfold isG
    exact Measurable.ite (hC.measG {(c.1 : WithTop ℤ)}) measurable_const measurable_const
  exact hC.w1.mul_le (hX.aemeas 0) hm fun z => by unfold isG; split_ifs <;> norm_num

section
variable {q : ℤ × ℤ → Bool} (hC : ∀ c ∈ D.filter q, CellOK P X G y y0 w cg a c.1 c.2 (bs c) (xs c) (βs c))
include hC

theorem good_filter {n : ℕ} {ω : Ω} {p : Agg.Cell (Fin n) ℝ → Bool} (hp : ∀ v : Agg.Cell (Fin n) ℝ, p v = q (v.g, v.t))
    (hω : ∀ c ∈ D.filter q, ω ∈ cGood G y w cg a bs xs X c n) : (cellTable G y w cg a bs xs D X n ω).filter p =
      (D.filter q).map fun c => ⟨c.1, c.2, cEst G y w cg a bs xs X c n ω, cInf G y w cg a bs xs X c n ω⟩ := by
  refine filterMap_filter D _ _ p q (fun c hc hq => ?_) fun c v hv => ?_
  · have hm := List.mem_filter.2 ⟨hc, hq⟩
    unfold cEst cInf
    rw [(att_eq hX (hC c hm) n ω (hω c hm)).1]
    rfl
  · obtain ⟨u, -, rfl⟩ := Option.map_eq_some_iff.1 hv
    exact hp _

theorem good_mem {n : ℕ} {ω : Ω} {c : ℤ × ℤ} (hc : c ∈ D.filter q) (hω : ω ∈ cGood G y w cg a bs xs X c n) :
    ∃ v ∈ cellTable G y w cg a bs xs D X n ω, v.g = c.1 ∧ v.t = c.2 :=
  ⟨⟨c.1, c.2, _, attInf G y w cg a c.1 c.2 (bs c) (xs c) X n ω⟩, List.mem_filterMap.2 ⟨c, (List.mem_filter.1 hc).1, by rw [(att_eq hX (hC c hc) n ω hω).1]; rfl⟩, rfl, rfl⟩

theorem q_regular (hD : D.filter q ≠ []) : Regular P X (wEst (D.filter q) Prod.fst G w X (cEst G y w cg a bs xs X))
    (wInf (D.filter q) Prod.fst G w X (cEst G y w cg a bs xs X) (cInf G y w cg a bs xs X)) (aggATT P X G y y0 w (D.filter q))
    (wGood (D.filter q) Prod.fst G w X (cGood G y w cg a bs xs X)) (aggInfluence P X G y y0 w cg a bs xs βs (D.filter q)) :=
  share_regular hX (fun c hc => c_regular hX (hC c hc)) (fun c hc => c_sq hX (hC c hc)) (fun c hc => (hC c hc).cohort) hD

/-- Total share, estimate and influence function of the cells in the mask, as `aggte` computes them. -/
theorem good_facts {n : ℕ} {ω : Ω} {p : Agg.Cell (Fin n) ℝ → Bool} (hp : ∀ v : Agg.Cell (Fin n) ℝ, p v = q (v.g, v.t))
    (hω : ω ∈ wGood (D.filter q) Prod.fst G w X (cGood G y w cg a bs xs X) n) :
    Agg.totalShare (fun i : Fin n => G (X i ω)) (fun i => w (X i ω)) (cellTable G y w cg a bs xs D X n ω) p ≠ 0 ∧
    Agg.weightedMean (fun i : Fin n => G (X i ω)) (fun i => w (X i ω)) (cellTable G y w cg a bs xs D X n ω) p =
      wEst (D.filter q) Prod.fst G w X (cEst G y w cg a bs xs X) n ω ∧
    Agg.meanIF (fun i : Fin n => G (X i ω)) (fun i => w (X i ω)) (cellTable G y w cg a bs xs D X n ω) p =
      wInf (D.filter q) Prod.fst G w X (cEst G y w cg a bs xs X) (cInf G y w cg a bs xs X) n ω := by
  have hf := good_filter hX hC hp (wGood_mem hω)
  refine ⟨?_, table_mean hf, funext fun i => table_inf hf hω.2 i⟩
  rw [table_total hf]
  exact hω.2

end

omit hX in
theorem table_mem {n : ℕ} {ω : Ω} {v : Agg.Cell (Fin n) ℝ} (hv : v ∈ cellTable G y w cg a bs xs D X n ω) : (v.g, v.t) ∈ D := by
  obtain ⟨c, hc, h⟩ := List.mem_filterMap.1 hv
  obtain ⟨u, -, rfl⟩ := Option.map_eq_some_iff.1 h
  exact hc

/-- **C260 (simple aggregate).** -/
theorem C260_simple (hC : ∀ c ∈ postCells D, CellOK P X G y y0 w cg a c.1 c.2 (bs c) (xs c) (βs c)) (hD : postCells D ≠ []) :
    Inference P X (fun n ω => repOf (Agg.simpleAgg (fun i : Fin n => G (X i ω)) (fun i => w (X i ω)) none (cellTable G y w cg a bs xs D X n ω)).1
        (Agg.simpleAgg (fun i : Fin n => G (X i ω)) (fun i => w (X i ω)) none (cellTable G y w cg a bs xs D X n ω)).2)
      (aggATT P X G y y0 w (postCells D)) (aggInfluence P X G y y0 w cg a bs xs βs (postCells D)) := by
  refine (q_regular hX hC hD).inference hX _ fun n ω hω => ?_
  obtain ⟨h1, h2, h3⟩ := good_facts hX hC (p := Agg.post) (fun v => rfl) hω
  rw [Agg.C32_simple _ _ _ h1, Agg.C37_simple_influence _ _ _ h1, h2, h3]
  rfl

theorem event_facts {e : ℤ} (hC : ∀ c ∈ eventCells D e, CellOK P X G y y0 w cg a c.1 c.2 (bs c) (xs c) (βs c))
    (hD : eventCells D e ≠ []) {minE maxE : Option ℤ} (hr : Agg.inRange minE maxE e)
    {n : ℕ} {ω : Ω} (hω : ω ∈ wGood (eventCells D e) Prod.fst G w X (cGood G y w cg a bs xs X) n) :
    (∃ r ∈ (Agg.dynamicAgg (fun i : Fin n => G (X i ω)) (fun i => w (X i ω)) none minE maxE (cellTable G y w cg a bs xs D X n ω)).effects, r.label = e) ∧
    ∀ r ∈ (Agg.dynamicAgg (fun i : Fin n => G (X i ω)) (fun i => w (X i ω)) none minE maxE (cellTable G y w cg a bs xs D X n ω)).effects, r.label = e →
      r.att = some (wEst (eventCells D e) Prod.fst G w X (cEst G y w cg a bs xs X) n ω) ∧
      r.psi = wInf (eventCells D e) Prod.fst G w X (cEst G y w cg a bs xs X) (cInf G y w cg a bs xs X) n ω := by
  obtain ⟨c, hc⟩ := List.exists_mem_of_ne_nil _ hD
  obtain ⟨h1, h2, h3⟩ := good_facts hX hC (p := Agg.atEvent e) (fun v => rfl) hω
  obtain ⟨-, h4, h5⟩ := Agg.C32_dynamic (fun i : Fin n => G (X i ω)) (fun i => w (X i ω)) minE maxE (cellTable G y w cg a bs xs D X n ω)
  refine ⟨?_, fun r hr hre => ⟨?_, ?_⟩⟩
  · obtain ⟨v, hv, hg, ht⟩ := good_mem hX hC hc (wGood_mem hω c hc)
    obtain ⟨r, hr, hre⟩ := List.mem_map.1 ((h4 e).2 ⟨⟨v, hv, by rw [hg, ht]; simpa using (List.mem_filter.1 hc).2⟩, hr⟩)
    exact ⟨r, hr, hre⟩
  · rw [h5 r hr (by rw [hre]; exact h1), hre, h2]
    rfl
  · rw [Agg.C37_dynamic_influence _ _ _ _ _ r hr, hre, h3]
    rfl

/-- **C260 (event-time effects).** -/
theorem C260_event {e : ℤ} (hC : ∀ c ∈ eventCells D e, CellOK P X G y y0 w cg a c.1 c.2 (bs c) (xs c) (βs c)) (hD : eventCells D e ≠ []) {minE maxE : Option ℤ}
    (hr : Agg.inRange minE maxE e) :
    Inference P X (fun n ω => rowOf (Agg.dynamicAgg (fun i : Fin n => G (X i ω)) (fun i => w (X i ω)) none minE maxE (cellTable G y w cg a bs xs D X n ω)).effects e)
      (aggATT P X G y y0 w (eventCells D e)) (aggInfluence P X G y y0 w cg a bs xs βs (eventCells D e)) := by
  refine (q_regular hX hC hD).inference hX _ fun n ω hω => ?_
  obtain ⟨h1, h2⟩ := event_facts hX hC hD hr hω
  exact rowOf_eq h1 h2

theorem period_facts {t : ℤ} (hC : ∀ c ∈ periodCells D t, CellOK P X G y y0 w cg a c.1 c.2 (bs c) (xs c) (βs c)) (hD : periodCells D t ≠ [])
    {n : ℕ} {ω : Ω} (hω : ω ∈ wGood (periodCells D t) Prod.fst G w X (cGood G y w cg a bs xs X) n) :
    (∃ r ∈ (Agg.calendarAgg (fun i : Fin n => G (X i ω)) (fun i => w (X i ω)) (cellTable G y w cg a bs xs D X n ω)).effects, r.label = t) ∧
    ∀ r ∈ (Agg.calendarAgg (fun i : Fin n => G (X i ω)) (fun i => w (X i ω)) (cellTable G y w cg a bs xs D X n ω)).effects, r.label = t →
      r.att = some (wEst (periodCells D t) Prod.fst G w X (cEst G y w cg a bs xs X) n ω) ∧
      r.psi = wInf (periodCells D t) Prod.fst G w X (cEst G y w cg a bs xs X) (cInf G y w cg a bs xs X) n ω := by
  obtain ⟨c, hc⟩ := List.exists_mem_of_ne_nil _ hD
  obtain ⟨h1, h2, h3⟩ := good_facts hX hC (p := Agg.atPeriod t) (fun v => rfl) hω
  obtain ⟨-, h4, h5⟩ := Agg.C32_calendar (fun i : Fin n => G (X i ω)) (fun i => w (X i ω)) (cellTable G y w cg a bs xs D X n ω)
  refine ⟨?_, fun r hr hre => ?_⟩
  · obtain ⟨v, hv, hg, ht⟩ := good_mem hX hC hc (wGood_mem hω c hc)
    have hct := (List.mem_filter.1 hc).2
    simp only [decide_eq_true_eq] at hct
    obtain ⟨r, hr, hre⟩ := List.mem_map.1 ((h4 t).2 ⟨⟨v, hv, by rw [ht]; exact hct.1⟩, v, hv, by rw [hg]; exact hct.2⟩)
    exact ⟨r, hr, hre⟩
  · have e1 := (h5 r hr).2 (by rw [hre]; exact h1)
    refine ⟨?_, ?_⟩
    · rw [e1, hre, h2]
      rfl
    · rw [Agg.C37_calendar_influence _ _ _ r hr (by rw [e1]; rfl), hre, h3]
      rfl

/-- **C260 (effects by calendar period).** -/
theorem C260_period {t : ℤ} (hC : ∀ c ∈ periodCells D t, CellOK P X G y y0 w cg a c.1 c.2 (bs c) (xs c) (βs c)) (hD : periodCells D t ≠ []) :
    Inference P X (fun n ω => rowOf (Agg.calendarAgg (fun i : Fin n => G (X i ω)) (fun i => w (X i ω)) (cellTable G y w cg a bs xs D X n ω)).effects t)
      (aggATT P X G y y0 w (periodCells D t)) (aggInfluence P X G y y0 w cg a bs xs βs (periodCells D t)) := by
  refine (q_regular hX hC hD).inference hX _ fun n ω hω => ?_
  obtain ⟨h1, h2⟩ := period_facts hX hC hD hω
  exact rowOf_eq h1 h2

theorem cohort_facts {g : ℤ} (hC : ∀ c ∈ cohortCells D g, CellOK P X G y y0 w cg a c.1 c.2 (bs c) (xs c) (βs c)) (hD : cohortCells D g ≠ [])
    {n : ℕ} {ω : Ω} (hω : ω ∈ ⋂ k : Fin (cohortCells D g).length, cGood G y w cg a bs xs X (cohortCells D g)[k.1] n) :
    (∃ r ∈ (Agg.groupAgg (fun i : Fin n => G (X i ω)) (fun i => w (X i ω)) none (cellTable G y w cg a bs xs D X n ω)).effects, r.label = g) ∧
    ∀ r ∈ (Agg.groupAgg (fun i : Fin n => G (X i ω)) (fun i => w (X i ω)) none (cellTable G y w cg a bs xs D X n ω)).effects, r.label = g →
      r.att = some (Agg.plainMean ((cohortCells D g).map fun c => cEst G y w cg a bs xs X c n ω)) ∧
      r.psi = fun i => Agg.plainMean ((cohortCells D g).map fun c => cInf G y w cg a bs xs X c n ω i) := by
  obtain ⟨c, hc⟩ := List.exists_mem_of_ne_nil _ hD
  have hf := good_filter hX hC (p := Agg.ofCohort g) (fun v => rfl) (list_mem hω)
  obtain ⟨-, h4, h5⟩ := Agg.C32_group (fun i : Fin n => G (X i ω)) (fun i => w (X i ω)) (cellTable G y w cg a bs xs D X n ω)
  obtain ⟨v, hv, hg, ht⟩ := good_mem hX hC hc (list_mem hω c hc)
  have hct := (List.mem_filter.1 hc).2
  simp only [decide_eq_true_eq] at hct
  refine ⟨?_, fun r hr hre => ?_⟩
  · obtain ⟨r, hr, hre⟩ := List.mem_map.1 ((h4 g).2 ⟨v, hv, by rw [hg]; exact hct.1⟩)
    exact ⟨r, hr, hre⟩
  · obtain ⟨e1, e2⟩ := (h5 r hr).2 ⟨v, hv, by rw [hg, hre]; exact hct.1, by rw [ht, hre]; exact hct.2⟩
    rw [hre, hf, List.map_map] at e1
    rw [hre, hf] at e2
    refine ⟨e1, funext fun i => ?_⟩
    rw [e2 i, List.map_map]
    rfl

theorem cohort_row {g : ℤ} (hC : ∀ c ∈ cohortCells D g, CellOK P X G y y0 w cg a c.1 c.2 (bs c) (xs c) (βs c)) {c : ℤ × ℤ} (hc : c ∈ cohortCells D g)
    {n : ℕ} {ω : Ω} (hω : ω ∈ cGood G y w cg a bs xs X c n) : ∃ v ∈ cellTable G y w cg a bs xs D X n ω, v.g = c.1 := by
  obtain ⟨v, hv, h, -⟩ := good_mem hX hC hc hω
  exact ⟨v, hv, h⟩

/-- **C260 (effects by cohort).**  A plain mean over the cohort's post-treatment periods. -/
theorem C260_cohort {g : ℤ} (hC : ∀ c ∈ cohortCells D g, CellOK P X G y y0 w cg a c.1 c.2 (bs c) (xs c) (βs c)) (hD : cohortCells D g ≠ []) :
    Inference P X (fun n ω => rowOf (Agg.groupAgg (fun i : Fin n => G (X i ω)) (fun i => w (X i ω)) none (cellTable G y w cg a bs xs D X n ω)).effects g)
      (Agg.plainMean ((cohortCells D g).map fun c => cellATT P X G y y0 w c.1 c.2))
      fun z => Agg.plainMean ((cohortCells D g).map fun c => cellInfluence P X G y y0 w cg a c.1 c.2 (bs c) (xs c) (βs c) z) := by
  refine (list_regular hX fun c hc => c_regular hX (hC c hc)).inference hX _ fun n ω hω => ?_
  obtain ⟨h1, h2⟩ := cohort_facts hX hC hD hω
  exact rowOf_eq h1 h2

/-! ## C261: the overall effects -/

omit hX in
/-- Rows with known labels, estimates and influence functions. -/
theorem rows_eq {n : ℕ} {rows : List (Agg.Eff (Fin n) ℝ)} {ls : List ℤ} {v : ℤ → ℝ} {psi : ℤ → Fin n → ℝ} (h1 : (rows.map Agg.Eff.label).Pairwise (· < ·))
    (h2 : ls.Pairwise (· < ·)) (h3 : ∀ r ∈ rows, r.label ∈ ls) (h4 : ∀ l ∈ ls, ∃ r ∈ rows, r.label = l) (h5 : ∀ r ∈ rows, r.att = some (v r.label) ∧ r.psi = psi r.label) :
    rows = ls.map fun l => ⟨l, some (v l), psi l⟩ := by
  have hl : rows.map Agg.Eff.label = ls := pairwise_eq h1 h2 fun e => ⟨fun he => by obtain ⟨r, hr, rfl⟩ := List.mem_map.1 he; exact h3 r hr, fun he => by
    obtain ⟨r, hr, rfl⟩ := h4 e he
    exact List.mem_map_of_mem hr⟩
  rw [← hl, List.map_map]
  conv_lhs => rw [← List.map_id rows]
  refine List.map_congr_left fun r hr => ?_
  obtain ⟨e1, e2⟩ := h5 r hr
  cases r
  simp_all

omit hX in
theorem numbers_rows {n : ℕ} (ls : List ℤ) (v : ℤ → ℝ) (psi : ℤ → Fin n → ℝ) : Agg.numbers (ls.map fun l => (⟨l, some (v l), psi l⟩ : Agg.Eff (Fin n) ℝ)) = ls.map v := by
  unfold Agg.numbers
  induction ls with
  | nil => rfl
  | cons l ls ih => simp only [List.map_cons, List.filterMap_cons, ih]

/-- **C261 (dynamic aggregation, overall effect).**  `evs` are the event times from 0 on that the cells cover within the requested range. -/
theorem C261_dynamic (evs : List ℤ) {minE maxE : Option ℤ} (hev : evs.Pairwise (· < ·))
    (hmem : ∀ e, e ∈ evs ↔ 0 ≤ e ∧ (∃ c ∈ D, c.2 - c.1 = e) ∧ Agg.inRange minE maxE e) (hne : evs ≠ [])
    (hC : ∀ e ∈ evs, ∀ c ∈ eventCells D e, CellOK P X G y y0 w cg a c.1 c.2 (bs c) (xs c) (βs c)) :
    Inference P X (fun n ω => repOf (Agg.dynamicAgg (fun i : Fin n => G (X i ω)) (fun i => w (X i ω)) none minE maxE (cellTable G y w cg a bs xs D X n ω)).overall
        (Agg.dynamicAgg (fun i : Fin n => G (X i ω)) (fun i => w (X i ω)) none minE maxE (cellTable G y w cg a bs xs D X n ω)).overallPsi)
      (Agg.plainMean (evs.map fun e => aggATT P X G y y0 w (eventCells D e)))
      fun z => Agg.plainMean (evs.map fun e => aggInfluence P X G y y0 w cg a bs xs βs (eventCells D e) z) := by
  have hD : ∀ e ∈ evs, eventCells D e ≠ [] := fun e he => by
    obtain ⟨c, hc, hce⟩ := ((hmem e).1 he).2.1
    exact List.ne_nil_of_mem (List.mem_filter.2 ⟨hc, by simpa using hce⟩)
  refine (list_regular hX fun e he => q_regular hX (hC e he) (hD e he)).inference hX _ fun n ω hω => ?_
  have hg : ∀ e ∈ evs, ω ∈ wGood (eventCells D e) Prod.fst G w X (cGood G y w cg a bs xs X) n := fun e he =>
    list_mem (H := fun e => wGood (eventCells D e) Prod.fst G w X (cGood G y w cg a bs xs X)) hω e he
  have hf : ∀ e ∈ evs, _ := fun e he => event_facts hX (hC e he) (hD e he) ((hmem e).1 he).2.2 (hg e he)
  obtain ⟨e0, he0⟩ := List.exists_mem_of_ne_nil _ hne
  obtain ⟨h3, h4, -⟩ := Agg.C32_dynamic (fun i : Fin n => G (X i ω)) (fun i => w (X i ω)) minE maxE (cellTable G y w cg a bs xs D X n ω)
  have hlab : ∀ r ∈ (Agg.dynamicAgg (fun i : Fin n => G (X i ω)) (fun i => w (X i ω)) none minE maxE (cellTable G y w cg a bs xs D X n ω)).effects, 0 ≤ r.label →
      r.label ∈ evs := by
    intro r hr h0
    obtain ⟨⟨v, hv, hve⟩, hrange⟩ := (h4 r.label).1 (List.mem_map_of_mem hr)
    exact (hmem _).2 ⟨h0, ⟨_, table_mem hv, hve⟩, hrange⟩
  obtain ⟨h6, -, -, h7⟩ := Agg.C37_dynamic_overall (fun i : Fin n => G (X i ω)) (fun i => w (X i ω)) minE maxE (cellTable G y w cg a bs xs D X n ω)
    (fun r hr h0 => by rw [((hf r.label (hlab r hr h0)).2 r hr rfl).1]; rfl)
    (by obtain ⟨r, hr, hre⟩ := (hf e0 he0).1; exact ⟨r, hr, by rw [hre]; exact ((hmem e0).1 he0).1⟩)
  have hrows : (Agg.dynamicAgg (fun i : Fin n => G (X i ω)) (fun i => w (X i ω)) none minE maxE (cellTable G y w cg a bs xs D X n ω)).effects.filter
      (fun x => decide (0 ≤ x.label)) = evs.map fun e => ⟨e, some (wEst (eventCells D e) Prod.fst G w X (cEst G y w cg a bs xs X) n ω),
        wInf (eventCells D e) Prod.fst G w X (cEst G y w cg a bs xs X) (cInf G y w cg a bs xs X) n ω⟩ := by
    refine rows_eq ?_ hev (fun r hr => ?_) (fun l hl => ?_) fun r hr => ?_
    · exact List.Pairwise.map _ (fun _ _ h => h) ((List.pairwise_map.1 h3).filter _)
    · obtain ⟨hr, h0⟩ := List.mem_filter.1 hr
      exact hlab r hr (by simpa using h0)
    · obtain ⟨r, hr, rfl⟩ := (hf l hl).1
      exact ⟨r, List.mem_filter.2 ⟨hr, by simpa using ((hmem _).1 hl).1⟩, rfl⟩
    · obtain ⟨hr, h0⟩ := List.mem_filter.1 hr
      exact (hf r.label (hlab r hr (by simpa using h0))).2 r hr rfl
  rw [hrows, numbers_rows] at h6
  rw [h6]
  simp only [hrows, List.map_map] at h7
  rw [funext h7]
  rfl

/-- **C261 (calendar aggregation, overall effect).**  `ts` are the periods with a post-treatment cell. -/
theorem C261_calendar (ts : List ℤ) (hts : ts.Pairwise (· < ·)) (hmem : ∀ t, t ∈ ts ↔ ∃ c ∈ D, c.2 = t ∧ c.1 ≤ t) (hne : ts ≠ [])
    (hC : ∀ c ∈ postCells D, CellOK P X G y y0 w cg a c.1 c.2 (bs c) (xs c) (βs c)) :
    Inference P X (fun n ω => repOf (Agg.calendarAgg (fun i : Fin n => G (X i ω)) (fun i => w (X i ω)) (cellTable G y w cg a bs xs D X n ω)).overall
        (Agg.calendarAgg (fun i : Fin n => G (X i ω)) (fun i => w (X i ω)) (cellTable G y w cg a bs xs D X n ω)).overallPsi)
      (Agg.plainMean (ts.map fun t => aggATT P X G y y0 w (periodCells D t)))
      fun z => Agg.plainMean (ts.map fun t => aggInfluence P X G y y0 w cg a bs xs βs (periodCells D t) z) := by
  have hC : ∀ t ∈ ts, ∀ c ∈ periodCells D t, CellOK P X G y y0 w cg a c.1 c.2 (bs c) (xs c) (βs c) := fun t _ c hc => by
    obtain ⟨hc, h⟩ := List.mem_filter.1 hc
    simp only [decide_eq_true_eq] at h
    exact hC c (List.mem_filter.2 ⟨hc, by simp only [decide_eq_true_eq]; omega⟩)
  have hD : ∀ t ∈ ts, periodCells D t ≠ [] := fun t ht => by
    obtain ⟨c, hc, h⟩ := (hmem t).1 ht
    exact List.ne_nil_of_mem (List.mem_filter.2 ⟨hc, by simpa using h⟩)
  refine (list_regular hX fun t ht => q_regular hX (hC t ht) (hD t ht)).inference hX _ fun n ω hω => ?_
  have hg : ∀ t ∈ ts, ω ∈ wGood (periodCells D t) Prod.fst G w X (cGood G y w cg a bs xs X) n := fun t ht =>
    list_mem (H := fun t => wGood (periodCells D t) Prod.fst G w X (cGood G y w cg a bs xs X)) hω t ht
  have hf : ∀ t ∈ ts, _ := fun t ht => period_facts hX (hC t ht) (hD t ht) (hg t ht)
  obtain ⟨t0, ht0⟩ := List.exists_mem_of_ne_nil _ hne
  obtain ⟨h3, h4, h5⟩ := Agg.C32_calendar (fun i : Fin n => G (X i ω)) (fun i => w (X i ω)) (cellTable G y w cg a bs xs D X n ω)
  have hlab : ∀ r ∈ (Agg.calendarAgg (fun i : Fin n => G (X i ω)) (fun i => w (X i ω)) (cellTable G y w cg a bs xs D X n ω)).effects, r.att.isSome = true →
      r.label ∈ ts := by
    intro r hr h0
    by_contra hcon
    rw [(h5 r hr).1 (by
      rintro ⟨v, hv, h⟩
      exact hcon ((hmem _).2 ⟨_, table_mem hv, h⟩))] at h0
    exact absurd h0 (by simp)
  obtain ⟨h6, -, -, h7⟩ := Agg.C37_calendar_overall (fun i : Fin n => G (X i ω)) (fun i => w (X i ω)) (cellTable G y w cg a bs xs D X n ω)
    (by obtain ⟨r, hr, hre⟩ := (hf t0 ht0).1; exact ⟨r, hr, by rw [((hf t0 ht0).2 r hr hre).1]; rfl⟩)
  have hrows : (Agg.calendarAgg (fun i : Fin n => G (X i ω)) (fun i => w (X i ω)) (cellTable G y w cg a bs xs D X n ω)).effects.filter
      (fun x => x.att.isSome) = ts.map fun t => ⟨t, some (wEst (periodCells D t) Prod.fst G w X (cEst G y w cg a bs xs X) n ω),
        wInf (periodCells D t) Prod.fst G w X (cEst G y w cg a bs xs X) (cInf G y w cg a bs xs X) n ω⟩ := by
    refine rows_eq ?_ hts (fun r hr => ?_) (fun l hl => ?_) fun r hr => ?_
    · exact List.Pairwise.map _ (fun _ _ h => h) ((List.pairwise_map.1 h3).filter _)
    · obtain ⟨hr, h0⟩ := List.mem_filter.1 hr
      exact hlab r hr h0
    · obtain ⟨r, hr, hre⟩ := (hf l hl).1
      exact ⟨r, List.mem_filter.2 ⟨hr, by rw [((hf l hl).2 r hr hre).1]; rfl⟩, hre⟩
    · obtain ⟨hr, h0⟩ := List.mem_filter.1 hr
      exact (hf r.label (hlab r hr h0)).2 r hr rfl
  rw [hrows, numbers_rows] at h6
  rw [h6]
  simp only [hrows, List.map_map] at h7
  rw [funext h7]
  rfl

/-- **C261 (group aggregation, overall effect).**  `gs` are the cohorts of the cells, each with a post-treatment cell; the cohort means are weighted by the cohort
shares. -/
theorem C261_group (gs : List ℤ) (hgs : gs.Pairwise (· < ·)) (hmem : ∀ g, g ∈ gs ↔ ∃ c ∈ D, c.1 = g) (hne : gs ≠ [])
    (hpost : ∀ g ∈ gs, cohortCells D g ≠ []) (hC : ∀ c ∈ postCells D, CellOK P X G y y0 w cg a c.1 c.2 (bs c) (xs c) (βs c)) :
    Inference P X (fun n ω => repOf (Agg.groupAgg (fun i : Fin n => G (X i ω)) (fun i => w (X i ω)) none (cellTable G y w cg a bs xs D X n ω)).overall
        (Agg.groupAgg (fun i : Fin n => G (X i ω)) (fun i => w (X i ω)) none (cellTable G y w cg a bs xs D X n ω)).overallPsi)
      (shareMean P X G w id (fun g => Agg.plainMean ((cohortCells D g).map fun c => cellATT P X G y y0 w c.1 c.2)) gs)
      (shareInfluence P X G w id (fun g => Agg.plainMean ((cohortCells D g).map fun c => cellATT P X G y y0 w c.1 c.2))
        (fun g z => Agg.plainMean ((cohortCells D g).map fun c => cellInfluence P X G y y0 w cg a c.1 c.2 (bs c) (xs c) (βs c) z)) gs) := by
  have hC : ∀ g, ∀ c ∈ cohortCells D g, c.1 = g ∧ CellOK P X G y y0 w cg a c.1 c.2 (bs c) (xs c) (βs c) := fun g c hc => by
    obtain ⟨hc, h⟩ := List.mem_filter.1 hc
    simp only [decide_eq_true_eq] at h
    exact ⟨h.1, hC c (List.mem_filter.2 ⟨hc, by simp only [decide_eq_true_eq]; omega⟩)⟩
  have hw : ∀ z, 0 ≤ w z := by
    obtain ⟨g, hg⟩ := List.exists_mem_of_ne_nil _ hne
    obtain ⟨c, hc⟩ := List.exists_mem_of_ne_nil _ (hpost g hg)
    exact (hC g c hc).2.nonneg
  have hsq : ∀ g ∈ gs, SqInt P X fun z => w z * isG G (id g) z := fun g hg => by
    obtain ⟨c, hc⟩ := List.exists_mem_of_ne_nil _ (hpost g hg)
    have := c_sq hX (hC g c hc).2
    rwa [(hC g c hc).1] at this
  have hsh : ∀ g ∈ gs, 0 < popShare P X G w (id g) := fun g hg => by
    obtain ⟨c, hc⟩ := List.exists_mem_of_ne_nil _ (hpost g hg)
    have := (hC g c hc).2.cohort
    rwa [(hC g c hc).1] at this
  have hreg := share_regular hX (fun g hg => list_regular hX fun c hc => c_regular hX (hC g c hc).2) hsq hsh hne
  refine hreg.inference hX _ fun n ω hω => ?_
  have hf : ∀ g ∈ gs, _ := fun g hg => cohort_facts hX (fun c hc => (hC g c hc).2) (hpost g hg) (wGood_mem hω g hg)
  obtain ⟨h3, h4, -⟩ := Agg.C32_group (fun i : Fin n => G (X i ω)) (fun i => w (X i ω)) (cellTable G y w cg a bs xs D X n ω)
  have hlab : ∀ r ∈ (Agg.groupAgg (fun i : Fin n => G (X i ω)) (fun i => w (X i ω)) none (cellTable G y w cg a bs xs D X n ω)).effects, r.label ∈ gs := by
    intro r hr
    obtain ⟨v, hv, hve⟩ := (h4 r.label).1 (List.mem_map_of_mem hr)
    exact (hmem _).2 ⟨_, table_mem hv, hve⟩
  have hrows := rows_eq h3 hgs hlab (fun g hg => (hf g hg).1) (v := fun g => Agg.plainMean ((cohortCells D g).map fun c => cEst G y w cg a bs xs X c n ω))
    (psi := fun g i => Agg.plainMean ((cohortCells D g).map fun c => cInf G y w cg a bs xs X c n ω i)) fun r hr => (hf r.label (hlab r hr)).2 r hr rfl
  have hcell : (Agg.effTable (Agg.groupAgg (fun i : Fin n => G (X i ω)) (fun i => w (X i ω)) none (cellTable G y w cg a bs xs D X n ω)).effects).filter (fun _ => true) =
      gs.map fun g => ⟨id g, g, Agg.plainMean ((cohortCells D g).map fun c => cEst G y w cg a bs xs X c n ω),
        fun i => Agg.plainMean ((cohortCells D g).map fun c => cInf G y w cg a bs xs X c n ω i)⟩ := by
    rw [hrows, List.filter_true]
    unfold Agg.effTable
    rw [List.map_map]
    rfl
  have htot := table_total (G := G) (w := w) (X := X) (ω := ω) (est := fun g n ω => Agg.plainMean ((cohortCells D g).map fun c => cEst G y w cg a bs xs X c n ω))
    (inf := fun g n ω i => Agg.plainMean ((cohortCells D g).map fun c => cInf G y w cg a bs xs X c n ω i)) hcell
  have hpos : ∃ c ∈ cellTable G y w cg a bs xs D X n ω, ∃ i : Fin n, G (X i ω) = (c.g : WithTop ℤ) ∧ 0 < w (X i ω) := by
    obtain ⟨k, -, hk⟩ := Finset.exists_ne_zero_of_sum_ne_zero hω.2
    rw [← mean_eq] at hk
    obtain ⟨i, -, hi⟩ := Finset.exists_ne_zero_of_sum_ne_zero (div_ne_zero_iff.1 hk).1
    have hgk := List.getElem_mem (l := gs) k.2
    obtain ⟨c, hc⟩ := List.exists_mem_of_ne_nil _ (hpost _ hgk)
    obtain ⟨v, hv, hvg⟩ := cohort_row hX (fun c hc => (hC gs[k.1] c hc).2) hc (list_mem (wGood_mem hω _ hgk) c hc)
    obtain ⟨hw0, hi0⟩ := mul_ne_zero_iff.1 hi
    refine ⟨v, hv, i, ?_, lt_of_le_of_ne (hw _) (Ne.symm hw0)⟩
    rw [hvg, (hC _ c hc).1]
    by_contra hcon
    exact hi0 (if_neg hcon)
  obtain ⟨b, h6, h7, -⟩ := Agg.C37_group_overall (fun i : Fin n => G (X i ω)) (fun i => w (X i ω)) (fun i => hw _) none (cellTable G y w cg a bs xs D X n ω)
    (fun r hr => by rw [((hf r.label (hlab r hr)).2 r hr rfl).1]; rfl) hpos
  have hmean := table_mean (G := G) (w := w) (X := X) (ω := ω) (est := fun g n ω => Agg.plainMean ((cohortCells D g).map fun c => cEst G y w cg a bs xs X c n ω))
    (inf := fun g n ω i => Agg.plainMean ((cohortCells D g).map fun c => cInf G y w cg a bs xs X c n ω i)) hcell
  have hinf := table_inf (G := G) (w := w) (X := X) (ω := ω) (est := fun g n ω => Agg.plainMean ((cohortCells D g).map fun c => cEst G y w cg a bs xs X c n ω))
    (inf := fun g n ω i => Agg.plainMean ((cohortCells D g).map fun c => cInf G y w cg a bs xs X c n ω i)) hcell hω.2
  rw [h6, Agg.C37_group_influence, funext hinf, h7, ← hmean]
  unfold Agg.weightedMean Agg.totalShare
  rw [hcell, hrows]
  simp only [List.map_map]
  rfl

end

/-! ## The population of C259 -/

def stCells : List (ℤ × ℤ) := [(2, 2), (2, 3), (3, 2), (3, 3)]

def stB (c : ℤ × ℤ) : ℤ := c.1 - 1

def stBeta (c : ℤ × ℤ) : Fin 2 → ℝ := ![((c.2 : ℝ) - ((c.1 : ℝ) - 1)), 2 * ((c.2 : ℝ) - ((c.1 : ℝ) - 1))]

theorem st_mem (c : ℤ × ℤ) (hc : c ∈ stCells) (h : c.1 ≤ c.2) : (c.1, c.2) ∈ [((2 : ℤ), (2 : ℤ)), (2, 3), (3, 3)] := by
  simp only [stCells, List.mem_cons, List.not_mem_nil, or_false] at hc
  rcases hc with rfl | rfl | rfl | rfl <;> simp_all

theorem st_posts : ∀ c ∈ stCells, c.1 ≤ c.2 → CellOK (draws Units) draw stG stY stY0 stW .notYetTreated 0 c.1 c.2 (stB c) stX (stBeta c) :=
  fun c hc h => st_ok c.1 c.2 (st_mem c hc h)

theorem st_share (g : ℤ) (h : g = 2 ∨ g = 3) : popShare (draws Units) draw stG stW g = 1 / 2 := by
  unfold popShare
  rcases h with rfl | rfl <;> simp only [st_pop, st_isG, stStart] <;> norm_num [stW, num]

theorem st_agg_neg (D : List (ℤ × ℤ)) (hD : D ≠ []) (h : ∀ c ∈ D, c ∈ stCells ∧ c.1 ≤ c.2) :
    aggInfluence (draws Units) draw stG stY stY0 stW .notYetTreated 0 stB (fun _ => stX) stBeta D (2, true, true) < 0 := by
  have hg : ∀ c ∈ D, c.1 = 2 ∨ c.1 = 3 := fun c hc => by
    have := st_mem c (h c hc).1 (h c hc).2
    simp only [List.mem_cons, Prod.mk.injEq, List.not_mem_nil, or_false] at this
    omega
  have e0 : ∀ g, isG stG g (2, true, true) = 0 := fun g => by rw [st_isG]; simp [stStart]
  have hS : 0 < (D.map fun c => popShare (draws Units) draw stG stW c.1).sum := by
    refine List.sum_pos _ (fun v hv => ?_) (by simpa using hD)
    obtain ⟨c, hc, rfl⟩ := List.mem_map.1 hv
    rw [st_share _ (hg c hc)]
    norm_num
  unfold aggInfluence shareInfluence
  simp only [e0, mul_zero, zero_mul, List.map_const', List.sum_replicate, smul_zero, add_zero]
  refine div_neg_of_neg_of_pos ?_ hS
  rw [← neg_pos, List.sum_neg]
  refine List.sum_pos _ (fun v hv => ?_) (by simpa using hD)
  rw [List.map_map] at hv
  obtain ⟨c, hc, rfl⟩ := List.mem_map.1 hv
  have := st_neg c.1 c.2 (st_mem c (h c hc).1 (h c hc).2)
  simp only [Function.comp_def]
  rw [st_share _ (hg c hc)]
  have e : cellInfluence (draws Units) draw stG stY stY0 stW .notYetTreated 0 c.1 c.2 (stB c) stX (stBeta c) (2, true, true) < 0 := this
  linarith

theorem st_lists : postCells stCells = [(2, 2), (2, 3), (3, 3)] ∧ eventCells stCells 0 = [(2, 2), (3, 3)] ∧ eventCells stCells 1 = [(2, 3)] ∧
    periodCells stCells 2 = [(2, 2)] ∧ periodCells stCells 3 = [(2, 3), (3, 3)] ∧ cohortCells stCells 2 = [(2, 2), (2, 3)] ∧ cohortCells stCells 3 = [(3, 3)] := by
  decide

theorem st_sums (D : List (ℤ × ℤ)) : aggATT (draws Units) draw stG stY stY0 stW D =
    (D.map fun c => popShare (draws Units) draw stG stW c.1 * cellATT (draws Units) draw stG stY stY0 stW c.1 c.2).sum /
      (D.map fun c => popShare (draws Units) draw stG stW c.1).sum := rfl

theorem st_values : aggATT (draws Units) draw stG stY stY0 stW (postCells stCells) = 52 / 9 ∧ aggATT (draws Units) draw stG stY stY0 stW (eventCells stCells 0) = 13 / 3 := by
  obtain ⟨h1, h2, -⟩ := st_lists
  rw [h1, h2, st_sums, st_sums]
  simp only [List.map_cons, List.map_nil, List.sum_cons, List.sum_nil, st_share 2 (.inl rfl), st_share 3 (.inr rfl)]
  rw [st_att 2 2 (by simp), st_att 2 3 (by simp), st_att 3 3 (by simp)]
  norm_num

theorem st_of (D : List (ℤ × ℤ)) (h : ∀ c ∈ D, c ∈ stCells ∧ c.1 ≤ c.2) : ∀ c ∈ D, CellOK (draws Units) draw stG stY stY0 stW .notYetTreated 0 c.1 c.2 (stB c) stX (stBeta c) :=
  fun c hc => st_posts c (h c hc).1 (h c hc).2

/-- Simple aggregate: limit 52/9, and 90% coverage. -/
example : Inference (draws Units) draw (fun n ω => repOf (Agg.simpleAgg (fun i : Fin n => stG (draw i ω)) (fun i => stW (draw i ω)) none
      (cellTable stG stY stW .notYetTreated 0 stB (fun _ => stX) stCells draw n ω)).1 (Agg.simpleAgg (fun i : Fin n => stG (draw i ω)) (fun i => stW (draw i ω)) none
      (cellTable stG stY stW .notYetTreated 0 stB (fun _ => stX) stCells draw n ω)).2) (52 / 9)
      (aggInfluence (draws Units) draw stG stY stY0 stW .notYetTreated 0 stB (fun _ => stX) stBeta (postCells stCells)) ∧
    0 < pop (draws Units) draw fun z => aggInfluence (draws Units) draw stG stY stY0 stW .notYetTreated 0 stB (fun _ => stX) stBeta (postCells stCells) z ^ 2 :=
  ⟨st_values.1 ▸ C260_simple draws_sampling (st_of _ (by decide)) (by decide), st_sq _ (st_agg_neg _ (by decide) (by decide))⟩

/-- Effect at event time 0: limit 13/3. -/
example : Inference (draws Units) draw (fun n ω => rowOf (Agg.dynamicAgg (fun i : Fin n => stG (draw i ω)) (fun i => stW (draw i ω)) none (some (-1)) none
      (cellTable stG stY stW .notYetTreated 0 stB (fun _ => stX) stCells draw n ω)).effects 0) (13 / 3)
      (aggInfluence (draws Units) draw stG stY stY0 stW .notYetTreated 0 stB (fun _ => stX) stBeta (eventCells stCells 0)) ∧
    0 < pop (draws Units) draw fun z => aggInfluence (draws Units) draw stG stY stY0 stW .notYetTreated 0 stB (fun _ => stX) stBeta (eventCells stCells 0) z ^ 2 :=
  ⟨st_values.2 ▸ C260_event draws_sampling (st_of _ (by decide)) (by decide) (by simp [Agg.inRange]), st_sq _ (st_agg_neg _ (by decide) (by decide))⟩

theorem st_periods : aggATT (draws Units) draw stG stY stY0 stW (periodCells stCells 2) = 13 / 3 ∧ aggATT (draws Units) draw stG stY stY0 stW (periodCells stCells 3) = 13 / 2 ∧
    aggATT (draws Units) draw stG stY stY0 stW (eventCells stCells 1) = 26 / 3 := by
  obtain ⟨-, -, h0, h1, h2, -⟩ := st_lists
  rw [h0, h1, h2, st_sums, st_sums, st_sums]
  simp only [List.map_cons, List.map_nil, List.sum_cons, List.sum_nil, st_share 2 (.inl rfl), st_share 3 (.inr rfl)]
  rw [st_att 2 2 (by simp), st_att 2 3 (by simp), st_att 3 3 (by simp)]
  norm_num

/-- Effect in period 3: limit 13/2. -/
example : Inference (draws Units) draw (fun n ω => rowOf (Agg.calendarAgg (fun i : Fin n => stG (draw i ω)) (fun i => stW (draw i ω))
      (cellTable stG stY stW .notYetTreated 0 stB (fun _ => stX) stCells draw n ω)).effects 3) (13 / 2)
      (aggInfluence (draws Units) draw stG stY stY0 stW .notYetTreated 0 stB (fun _ => stX) stBeta (periodCells stCells 3)) ∧
    0 < pop (draws Units) draw fun z => aggInfluence (draws Units) draw stG stY stY0 stW .notYetTreated 0 stB (fun _ => stX) stBeta (periodCells stCells 3) z ^ 2 :=
  ⟨st_periods.2.1 ▸ C260_period draws_sampling (st_of _ (by decide)) (by decide), st_sq _ (st_agg_neg _ (by decide) (by decide))⟩

theorem st_cohorts : Agg.plainMean ((cohortCells stCells 2).map fun c => cellATT (draws Units) draw stG stY stY0 stW c.1 c.2) = 13 / 2 ∧
    Agg.plainMean ((cohortCells stCells 3).map fun c => cellATT (draws Units) draw stG stY stY0 stW c.1 c.2) = 13 / 3 := by
  obtain ⟨-, -, -, -, -, h1, h2⟩ := st_lists
  rw [h1, h2]
  unfold Agg.plainMean
  simp only [List.map_cons, List.map_nil, List.sum_cons, List.sum_nil, List.length_cons, List.length_nil]
  rw [st_att 2 2 (by simp), st_att 2 3 (by simp), st_att 3 3 (by simp)]
  norm_num

theorem st_mean_neg {α : Type*} (L : List α) (f : α → ℝ) (hL : L ≠ []) (h : ∀ c ∈ L, f c < 0) : Agg.plainMean (L.map f) < 0 := by
  unfold Agg.plainMean
  refine div_neg_of_neg_of_pos ?_ (by rw [List.length_map]; exact_mod_cast List.length_pos_of_ne_nil hL)
  rw [← neg_pos, List.sum_neg, List.map_map]
  refine List.sum_pos _ (fun v hv => ?_) (by simpa using hL)
  obtain ⟨c, hc, rfl⟩ := List.mem_map.1 hv
  exact neg_pos.2 (h c hc)

theorem st_cohort_neg (g : ℤ) (hg : cohortCells stCells g ≠ []) : Agg.plainMean ((cohortCells stCells g).map fun c =>
    cellInfluence (draws Units) draw stG stY stY0 stW .notYetTreated 0 c.1 c.2 (stB c) stX (stBeta c) (2, true, true)) < 0 :=
  st_mean_neg _ _ hg fun c hc => st_neg c.1 c.2 (st_mem c (List.mem_filter.1 hc).1 (by have := (List.mem_filter.1 hc).2; simp only [decide_eq_true_eq] at this; omega))

/-- Effect of cohort 2: limit 13/2. -/
example : Inference (draws Units) draw (fun n ω => rowOf (Agg.groupAgg (fun i : Fin n => stG (draw i ω)) (fun i => stW (draw i ω)) none
      (cellTable stG stY stW .notYetTreated 0 stB (fun _ => stX) stCells draw n ω)).effects 2) (13 / 2)
      (fun z => Agg.plainMean ((cohortCells stCells 2).map fun c => cellInfluence (draws Units) draw stG stY stY0 stW .notYetTreated 0 c.1 c.2 (stB c) stX (stBeta c) z)) ∧
    0 < pop (draws Units) draw fun z => (Agg.plainMean ((cohortCells stCells 2).map fun c =>
      cellInfluence (draws Units) draw stG stY stY0 stW .notYetTreated 0 c.1 c.2 (stB c) stX (stBeta c) z)) ^ 2 :=
  ⟨st_cohorts.1 ▸ C260_cohort draws_sampling (st_of _ (by decide)) (by decide),
    st_sq _ (st_cohort_neg 2 (by decide))⟩

/-- Overall dynamic effect: (13/3 + 26/3)/2. -/
example : Inference (draws Units) draw (fun n ω => repOf (Agg.dynamicAgg (fun i : Fin n => stG (draw i ω)) (fun i => stW (draw i ω)) none none none
        (cellTable stG stY stW .notYetTreated 0 stB (fun _ => stX) stCells draw n ω)).overall (Agg.dynamicAgg (fun i : Fin n => stG (draw i ω)) (fun i => stW (draw i ω)) none none none
        (cellTable stG stY stW .notYetTreated 0 stB (fun _ => stX) stCells draw n ω)).overallPsi) (13 / 2)
      (fun z => Agg.plainMean ([0, 1].map fun e => aggInfluence (draws Units) draw stG stY stY0 stW .notYetTreated 0 stB (fun _ => stX) stBeta (eventCells stCells e) z)) ∧
    0 < pop (draws Units) draw fun z => (Agg.plainMean ([0, 1].map fun e =>
      aggInfluence (draws Units) draw stG stY stY0 stW .notYetTreated 0 stB (fun _ => stX) stBeta (eventCells stCells e) z)) ^ 2 := by
  have hv : Agg.plainMean ([0, 1].map fun e => aggATT (draws Units) draw stG stY stY0 stW (eventCells stCells e)) = 13 / 2 := by
    simp only [List.map_cons, List.map_nil, st_values.2, st_periods.2.2]
    norm_num [Agg.plainMean]
  refine ⟨hv ▸ C261_dynamic draws_sampling [0, 1] (by decide) (fun e => ?_) (by decide) fun e he => st_of _ ?_,
    st_sq (fun z => Agg.plainMean ([0, 1].map fun e => aggInfluence (draws Units) draw stG stY stY0 stW .notYetTreated 0 stB (fun _ => stX) stBeta (eventCells stCells e) z))
      (st_mean_neg _ _ (by decide) fun e he => st_agg_neg _ ?_ ?_)⟩
  · simp only [stCells, Agg.inRange, List.mem_cons, List.not_mem_nil, or_false, exists_eq_or_imp, exists_eq_left]
    simp
    omega
  · revert e
    decide
  · revert e
    decide
  · revert e
    decide

/-- Overall calendar effect: (13/3 + 13/2)/2. -/
example : Inference (draws Units) draw (fun n ω => repOf (Agg.calendarAgg (fun i : Fin n => stG (draw i ω)) (fun i => stW (draw i ω))
        (cellTable stG stY stW .notYetTreated 0 stB (fun _ => stX) stCells draw n ω)).overall (Agg.calendarAgg (fun i : Fin n => stG (draw i ω)) (fun i => stW (draw i ω))
        (cellTable stG stY stW .notYetTreated 0 stB (fun _ => stX) stCells draw n ω)).overallPsi) (65 / 12)
      (fun z => Agg.plainMean ([2, 3].map fun t => aggInfluence (draws Units) draw stG stY stY0 stW .notYetTreated 0 stB (fun _ => stX) stBeta (periodCells stCells t) z)) ∧
    0 < pop (draws Units) draw fun z => (Agg.plainMean ([2, 3].map fun t =>
      aggInfluence (draws Units) draw stG stY stY0 stW .notYetTreated 0 stB (fun _ => stX) stBeta (periodCells stCells t) z)) ^ 2 := by
  have hv : Agg.plainMean ([2, 3].map fun t => aggATT (draws Units) draw stG stY stY0 stW (periodCells stCells t)) = 65 / 12 := by
    simp only [List.map_cons, List.map_nil, st_periods.1, st_periods.2.1]
    norm_num [Agg.plainMean]
  refine ⟨hv ▸ C261_calendar draws_sampling [2, 3] (by decide) (fun t => ?_) (by decide) (st_of _ (by decide)),
    st_sq (fun z => Agg.plainMean ([2, 3].map fun t => aggInfluence (draws Units) draw stG stY stY0 stW .notYetTreated 0 stB (fun _ => stX) stBeta (periodCells stCells t) z))
      (st_mean_neg _ _ (by decide) fun t ht => st_agg_neg _ ?_ ?_)⟩
  · simp only [stCells, List.mem_cons, List.not_mem_nil, or_false, exists_eq_or_imp, exists_eq_left]
    omega
  · revert t
    decide
  · revert t
    decide

/-- Overall group effect: (13/2 + 13/3)/2. -/
example : ∃ ψ, Inference (draws Units) draw (fun n ω => repOf (Agg.groupAgg (fun i : Fin n => stG (draw i ω)) (fun i => stW (draw i ω)) none
        (cellTable stG stY stW .notYetTreated 0 stB (fun _ => stX) stCells draw n ω)).overall (Agg.groupAgg (fun i : Fin n => stG (draw i ω)) (fun i => stW (draw i ω)) none
        (cellTable stG stY stW .notYetTreated 0 stB (fun _ => stX) stCells draw n ω)).overallPsi) (65 / 12) ψ ∧ 0 < pop (draws Units) draw fun z => ψ z ^ 2 := by
  have hv : shareMean (draws Units) draw stG stW id (fun g => Agg.plainMean ((cohortCells stCells g).map fun c => cellATT (draws Units) draw stG stY stY0 stW c.1 c.2)) [2, 3] =
      65 / 12 := by
    unfold shareMean
    simp only [List.map_cons, List.map_nil, st_cohorts.1, st_cohorts.2, id, st_share 2 (.inl rfl), st_share 3 (.inr rfl)]
    norm_num
  refine ⟨_, hv ▸ C261_group draws_sampling [2, 3] (by decide) (fun g => ?_) (by decide) (by decide) (st_of _ (by decide)), st_sq _ ?_⟩
  rotate_left
  · simp only [stCells, List.mem_cons, List.not_mem_nil, or_false, exists_eq_or_imp, exists_eq_left]
    omega
  · have hn : ∀ g ∈ [(2 : ℤ), 3], Agg.plainMean ((cohortCells stCells g).map fun c =>
        cellInfluence (draws Units) draw stG stY stY0 stW .notYetTreated 0 c.1 c.2 (stB c) stX (stBeta c) (2, true, true)) < 0 := fun g hg =>
      st_cohort_neg g (by revert g; decide)
    have e0 : ∀ g, isG stG g (2, true, true) = 0 := fun g => by rw [st_isG]; simp [stStart]
    have h2 := hn 2 (by simp)
    have h3 := hn 3 (by simp)
    unfold shareInfluence
    simp only [List.map_cons, List.map_nil, List.sum_cons, List.sum_nil, id, st_share 2 (.inl rfl), st_share 3 (.inr rfl), e0, mul_zero, zero_mul, add_zero]
    norm_num
    linarith

end Verif.Asym
