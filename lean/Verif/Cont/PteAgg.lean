import Verif.Cont.Pte
import Verif.Cont.Agg
import Mathlib.Algebra.BigOperators.Group.Finset.Basic
import Mathlib.Tactic.NormNum

set_option linter.unusedSectionVars false
set_option linter.unusedSimpArgs false

/-!
# Aggregation in `pte` under the two bootstrap types: model and lemmas (C225-C227)

Models `process_att_gt`'s labels (`moderndid/didcont/estimation/process_attgt.py:86-93`), `aggregate_att_gt`
(`process_aggte.py:56-93,188-264,298-317`, multiplier bootstrap) and `attgt_pte_aggregations`
(`didcont/estimation/bootstrap.py:186-342`, empirical bootstrap).  Only point estimates are modelled here; every cell is assumed to have
an estimate.
-/

namespace Verif.Cont

variable {K : Type*}

/-! ## Model: periods and labels -/

/-- `t_list`, `process_panel.py:397-404`: recoded periods `1..T`, without the first `req` ones for the varying base. -/
def pteTimes (universal : Bool) (req T : ℕ) : List ℤ :=
  ((List.range T).map fun i : ℕ => (i : ℤ) + 1).drop (if universal then 0 else req)

/-- `time_map.get(v, v)` with `time_map = {i + 1: orig}`, `process_attgt.py:90-93`, `bootstrap.py:231-237`. -/
def origOf (ps : List ℤ) (v : ℤ) : ℤ := if 1 ≤ v then (ps[(v - 1).toNat]?).getD v else v

/-- The label `process_att_gt` reports for the recoded value `v`, `process_attgt.py:86-93`. -/
def pteLabel (ps tl : List ℤ) (v : ℤ) : ℤ := if ∀ t ∈ tl, t ∈ ps then v else origOf ps v

/-- The label used with the empirical bootstrap, `bootstrap.py:230-237`. -/
def pteLabelEmp (ps tl : List ℤ) (v : ℤ) : ℤ := if tl = ps then v else origOf ps v

/-! ## Model: multiplier bootstrap -/

section
variable [Field K] [LinearOrder K]

/-- `np.mean(weights_ind * (G == g))` over the rows (cohort, weight) of the first period, `process_aggte.py:69-81`. -/
def shareOf (fr : List (WithTop ℤ × K)) (g : ℤ) : K :=
  (fr.map fun r => if r.1 = (g : WithTop ℤ) then r.2 else 0).sum / (fr.length : K)

/-- `pg_att`, `process_aggte.py:87-88`. -/
def pgAtt (share : ℤ → K) (cells : List (ℤ × ℤ)) (c : ℤ × ℤ) : K :=
  (((pgOf share cells).filter fun p => decide (toIdx cells p.1 = toIdx cells c.1)).getLast?.map Prod.snd).getD 0

/-- `np.sum(att[which] * safe_normalize(pg_att[which]))`, `process_aggte.py:232,240` and `308,317`; `none` is NaN (no cell). -/
def aggSel (share : ℤ → K) (cells : List (ℤ × ℤ)) (att : ℤ × ℤ → K) (sel : ℤ × ℤ → Bool) : Option K :=
  if cells.filter sel = [] then none
  else some (((cells.filter sel).zip (safeNormalize ((cells.filter sel).map (pgAtt share cells)))).map fun p => att p.1 * p.2).sum

/-- `event_idx_all`, `process_aggte.py:189`. -/
def eventIdx (cells : List (ℤ × ℤ)) (c : ℤ × ℤ) : ℤ := toIdx cells c.2 - toIdx cells c.1

/-- Event-study effect at `e`, `process_aggte.py:223-240` (no balancing). -/
def mulDyn (share : ℤ → K) (cells : List (ℤ × ℤ)) (att : ℤ × ℤ → K) (e : ℤ) : Option K :=
  aggSel share cells att fun c => decide (eventIdx cells c = e)

/-- `eseq`, `process_aggte.py:190`. -/
def mulEvents (cells : List (ℤ × ℤ)) : List ℤ := (cells.map (eventIdx cells)).dedup.insertionSort (· ≤ ·)

/-- Overall effect of `pte` with the multiplier bootstrap, `process_aggte.py:90-93,298-317` (`aggregation_type="overall"`). -/
def mulOverall (share : ℤ → K) (cells : List (ℤ × ℤ)) (att : ℤ × ℤ → K) : Option K :=
  aggSel share cells att fun c => decide (toIdx cells c.1 ≤ toIdx cells c.2)

/-- Overall effect of an event study with the multiplier bootstrap, `process_panel.py:207-212`, `process_aggte.py:261-264`: the mean of
the event-study effects at `e ≥ 0`. -/
def mulEventOverall (share : ℤ → K) (cells : List (ℤ × ℤ)) (att : ℤ × ℤ → K) : Option K :=
  let es := (mulEvents cells).filter (0 ≤ ·)
  if es = [] then none else (es.mapM (mulDyn share cells att)).map fun l => l.sum / (es.length : K)

/-! ## Model: empirical bootstrap -/

/-- `n_group`, `bootstrap.py:241-250`: the number of rows of a cohort in the first evaluated period; sampling weights are not used. -/
def nGroup (fr : List (WithTop ℤ × K)) (g : ℤ) : K := (fr.countP fun r => decide (r.1 = (g : WithTop ℤ)) : ℕ)

/-- `dyn_w` and `att_e`, `bootstrap.py:239,253-257`; `none` is NaN or an absent row. -/
def empDyn (n : ℤ → K) (cells : List (ℤ × ℤ)) (att : ℤ × ℤ → K) (e : ℤ) : Option K :=
  let ks := cells.filter fun c => decide (c.2 - c.1 = e)
  let s := (ks.map fun c => n c.1).sum
  if s = 0 then none else some (ks.map fun c => att c * (n c.1 / s)).sum

/-- `dyn_weights`, `bootstrap.py:259-265`: the weight of cell `c` for event time `e`. -/
def empDynW (n : ℤ → K) (cells : List (ℤ × ℤ)) (e : ℤ) (c : ℤ × ℤ) : K :=
  if c.2 - c.1 = e then n c.1 / ((cells.filter fun c => decide (c.2 - c.1 = e)).map fun c => n c.1).sum else 0

/-- `post_treatment_df`, `bootstrap.py:270`. -/
def postCells (cells : List (ℤ × ℤ)) : List (ℤ × ℤ) := cells.filter fun c => decide (c.1 ≤ c.2)

/-- Post-treatment cells of a cohort, `bootstrap.py:272`. -/
def postOf (cells : List (ℤ × ℤ)) (g : ℤ) : List (ℤ × ℤ) := (postCells cells).filter fun c => decide (c.1 = g)

/-- `att_g`, `bootstrap.py:273`. -/
def empGroup (cells : List (ℤ × ℤ)) (att : ℤ × ℤ → K) (g : ℤ) : K := ((postOf cells g).map att).sum / ((postOf cells g).length : K)

/-- `group_weights`, `bootstrap.py:284-292`. -/
def empGroupW (cells : List (ℤ × ℤ)) (g : ℤ) (c : ℤ × ℤ) : K :=
  if c.1 ≤ c.2 ∧ c.1 = g then 1 / ((postOf cells g).length : K) else 0

/-- Cohorts with a post-treatment cell, `bootstrap.py:272`. -/
def empGroups (cells : List (ℤ × ℤ)) : List ℤ := ((postCells cells).map Prod.fst).dedup

/-- `overall_att`, `bootstrap.py:297-302`; `none` is NaN. -/
def empOverall (n : ℤ → K) (cells : List (ℤ × ℤ)) (att : ℤ × ℤ → K) : Option K :=
  let s := ((empGroups cells).map n).sum
  if s = 0 then none else some ((empGroups cells).map fun g => empGroup cells att g * (n g / s)).sum

/-- `overall_weights`, `bootstrap.py:304-320`. -/
def empOverallW (n : ℤ → K) (cells : List (ℤ × ℤ)) (c : ℤ × ℤ) : K :=
  if 0 ≤ c.2 - c.1 then n c.1 / ((empGroups cells).map n).sum / ((postOf cells c.1).length : K) else 0

end

/-! ## Lemmas -/

section
variable [Field K] [LinearOrder K] [IsStrictOrderedRing K]

/-- A sum over a list split by a key. -/
theorem sum_by_key {α : Type*} (key : α → ℤ) (f : α → K) (L : List ℤ) (hL : L.Nodup) (l : List α) (hk : ∀ c ∈ l, key c ∈ L) :
    (l.map f).sum = (L.map fun g => ((l.filter fun c => decide (key c = g)).map f).sum).sum := by
  induction l with
  | nil => simp
  | cons a l ih =>
    have e : (L.map fun g => (((a :: l).filter fun c => decide (key c = g)).map f).sum) =
        L.map fun g => (if key a = g then f a else 0) + ((l.filter fun c => decide (key c = g)).map f).sum := by
      refine List.map_congr_left fun g _ => ?_
      rw [List.filter_cons]
      by_cases h : key a = g
      · simp [h]
      · simp [h]
    rw [e, List.sum_map_add, ← ih fun c hc => hk c (List.mem_cons_of_mem _ hc), List.map_cons, List.sum_cons]
    congr 1
    have h1 := hk a (by simp)
    clear e ih hk
    induction L with
    | nil => simp at h1
    | cons g L ih =>
      obtain ⟨hg, hL'⟩ := List.nodup_cons.1 hL
      rw [List.map_cons, List.sum_cons]
      by_cases h : key a = g
      · rw [if_pos h]
        have : (L.map fun g => if key a = g then f a else 0).sum = 0 := by
          refine List.sum_eq_zero ?_
          intro x hx
          obtain ⟨g', hg', rfl⟩ := List.mem_map.1 hx
          rw [if_neg]
          rintro rfl; exact hg (h ▸ hg')
        rw [this, add_zero]
      · rw [if_neg h, zero_add]
        exact ih hL' ((List.mem_cons.1 h1).resolve_left h)

theorem sum_map_mul_div {α : Type*} (l : List α) (f g : α → K) (s : K) : (l.map fun c => f c * (g c / s)).sum = (l.map fun c => g c * f c).sum / s := by
  induction l with
  | nil => simp
  | cons a l ih => simp only [List.map_cons, List.sum_cons, ih, add_div]; ring

theorem sum_map_div_right {α : Type*} (l : List α) (f : α → K) (s : K) : (l.map fun c => f c / s).sum = (l.map f).sum / s := by
  induction l with
  | nil => simp
  | cons a l ih => simp only [List.map_cons, List.sum_cons, ih, add_div]

theorem sum_map_filter_ite {α : Type*} (l : List α) (p : α → Bool) (f : α → K) :
    ((l.filter p).map f).sum = (l.map fun c => if p c = true then f c else 0).sum := by
  induction l with
  | nil => rfl
  | cons a l ih =>
    rw [List.filter_cons]
    by_cases h : p a = true
    · simp [h, ih]
    · simp [h, ih]

variable {ts gs : List ℤ} (hts : ts.Pairwise (· < ·)) (hgs : gs.Pairwise (· < ·)) (hne : gs ≠ [])
  (hsub : ∀ g ∈ gs, g ∈ ts) (hpos : ∀ g ∈ gs, 0 < g)
include hts hgs hne hsub hpos

/-- On the cells of `pte` with positive total share, `pg_att` is the cohort's share among the treated cohorts. -/
theorem pgAtt_product (share : ℤ → K) (hs : 0 < (gs.map share).sum) {c : ℤ × ℤ} (hc : c ∈ product ts gs) :
    pgAtt share (product ts gs) c = share c.1 / (gs.map share).sum := by
  obtain ⟨h1, h2⟩ := mem_product.1 hc
  have htne : ts ≠ [] := List.ne_nil_of_mem h2
  have hpg : pgOf share (product ts gs) = gs.zip (gs.map fun g => share g / (gs.map share).sum) := by
    unfold pgOf safeNormalize
    rw [gList_product hgs htne hpos, if_neg (not_le.2 hs), List.map_map]
    rfl
  unfold pgAtt
  rw [hpg]
  have hf : (gs.zip (gs.map fun g => share g / (gs.map share).sum)).filter
      (fun p => decide (toIdx (product ts gs) p.1 = toIdx (product ts gs) c.1)) =
      (gs.zip (gs.map fun g => share g / (gs.map share).sum)).filter fun p => decide (p.1 = c.1) := by
    refine List.filter_congr ?_
    rintro ⟨a, b⟩ hab
    have ha := (List.of_mem_zip hab).1
    exact decide_eq_decide.2 (toIdx_inj hts hne (hsub _ ha) (hsub _ h1))
  rw [hf, zip_filter_getLast (hgs.imp fun h => ne_of_lt h) h1]
  rfl

/-- The weighted mean of the selected cells. -/
theorem aggSel_product (share : ℤ → K) (hs : 0 < (gs.map share).sum) (att : ℤ × ℤ → K) (sel : ℤ × ℤ → Bool)
    (hsel : 0 < (((product ts gs).filter sel).map fun c => share c.1).sum) :
    aggSel share (product ts gs) att sel = some ((((product ts gs).filter sel).map fun c => share c.1 * att c).sum /
      (((product ts gs).filter sel).map fun c => share c.1).sum) := by
  obtain ⟨ks, hks⟩ : ∃ l, l = (product ts gs).filter sel := ⟨_, rfl⟩
  have hmem : ∀ c ∈ ks, c ∈ product ts gs := fun c hc => by rw [hks] at hc; exact (List.mem_filter.1 hc).1
  unfold aggSel
  rw [← hks] at hsel ⊢
  have hkne : ks ≠ [] := by rintro rfl; simp at hsel
  rw [if_neg hkne]
  have e1 : ks.map (pgAtt share (product ts gs)) = ks.map fun c => share c.1 / (gs.map share).sum :=
    List.map_congr_left fun c hc => pgAtt_product hts hgs hne hsub hpos share hs (hmem c hc)
  rw [e1]
  have e2 : (ks.map fun c => share c.1 / (gs.map share).sum).sum = (ks.map fun c => share c.1).sum / (gs.map share).sum :=
    sum_map_div_right ks (fun c => share c.1) _
  unfold safeNormalize
  rw [if_neg (by rw [e2]; exact not_le.2 (div_pos hsel hs)), e2, List.map_map]
  congr 1
  have : ∀ l : List (ℤ × ℤ), ((l.zip (l.map ((fun v => v / ((ks.map fun c => share c.1).sum / (gs.map share).sum)) ∘
      fun c => share c.1 / (gs.map share).sum))).map fun p => att p.1 * p.2).sum =
      (l.map fun c => share c.1 * att c).sum / (ks.map fun c => share c.1).sum := by
    intro l
    induction l with
    | nil => simp
    | cons a l ih =>
      simp only [List.map_cons, List.zip_cons_cons, List.sum_cons, ih, add_div, Function.comp]
      congr 1
      field_simp [hs.ne', hsel.ne']
  exact this ks

omit hgs hne hsub hpos in
/-- Consecutive periods. -/
theorem toIdx_consecutive (hne : gs ≠ []) (a : ℤ) (m : ℕ) (h : ts = (List.range m).map fun i : ℕ => a + i) {x y : ℤ} (hx : x ∈ ts) (hy : y ∈ ts) :
    toIdx (product ts gs) x - toIdx (product ts gs) y = x - y := by
  rw [toIdx_mem hts hne hx, toIdx_mem hts hne hy]
  have key : ∀ z ∈ ts, (ts.idxOf z : ℤ) = z - a := by
    intro z hz
    have hn : ts.Nodup := hts.imp fun h => ne_of_lt h
    have hz' := hz
    rw [h, List.mem_map] at hz'
    obtain ⟨i, hi, rfl⟩ := hz'
    rw [List.mem_range] at hi
    have hl : i < ts.length := by rw [h]; simpa using hi
    have hget : ts[i] = a + i := by simp only [h, List.getElem_map, List.getElem_range]
    rw [← hget, List.Nodup.idxOf_getElem hn, hget]
    ring
  rw [key x hx, key y hy]; ring

end

end Verif.Cont
