import Verif.Triple.Multi
import Mathlib.Data.List.GetD
import Mathlib.Data.Finset.Card
import Mathlib.Data.Finset.Range
import Mathlib.Algebra.Order.BigOperators.Group.List
import Mathlib.Tactic.Linarith

/-!
# C180–C182: the distributed `ddd` driver

Model of `dask/_ddd_mp.py`, `spark/_ddd_mp.py` and of the multi-control paths of `dask/_ddd_streaming.py` / `spark/_ddd_streaming.py`.
Cohorts are `Option ℤ`, `none` standing for a non-finite value, as in `Verif/Triple/Multi.lean`.
-/

set_option linter.unusedSectionVars false
set_option linter.unusedSimpArgs false

namespace Verif.Dist.DddDriver

open Verif

/-! ## Model -/

/-- `glist`, `dask/_ddd_mp.py:143,171`. -/
def glistD (cohorts : List (Option ℤ)) : List ℤ := Agg.uniqueSorted ((cohorts.filterMap id).filter fun g => decide (0 < g))

/-- The cells to compute, `dask/_ddd_mp.py:215-237`: cohort, period, base period. -/
def computeCells (universal : Bool) (tlist glist : List ℤ) : List (ℤ × ℤ × ℤ) :=
  let tfac := if universal then 0 else 1
  glist.flatMap fun g => (List.range (tlist.length - tfac)).filterMap fun i =>
    let t := (tlist[i + tfac]?).getD 0
    match Triple.pretOf universal tlist g t i with
    | none => none
    | some pret => if universal && decide (pret = t) then none else some (g, t, pret)

/-- `available_controls`, `dask/_ddd_mp.py:676-681,1015-1017`, `spark/_ddd_mp.py:698-703`: taken from all cohorts of the data. -/
def controlsD (cohorts : List (Option ℤ)) (g t pret : ℤ) : List ℤ :=
  Agg.uniqueSorted ((cohorts.filterMap id).filter fun c => decide (c ≠ g) && (decide (c = 0) || decide (max t pret < c)))

/-- Python exceptions that end the call. -/
inductive Raise
  | typeError
  | indexError
  | valueError
deriving DecidableEq

/-- `ids` of the rows of each partition, `_ddd_partition.py:411-413`, `dask/_ddd_streaming.py:1301-1302`: positions in the concatenation of
all partitions of the cell.  A row is its cohort with whatever else it carries. -/
def numbered {ρ : Type*} : ℕ → List (List ρ) → List (List (ρ × ℕ))
  | _, [] => []
  | o, p :: ps => p.zipIdx o :: numbered (o + p.length) ps

/-- `_filter_rc_partition_for_ctrl`, `_ddd_partition.py:448-475` (an empty list is `None`): the positions are kept, not renumbered. -/
def ctrlRows {ρ : Type*} (grp : ρ → Option ℤ) (g c : ℤ) (parts : List (List (ρ × ℕ))) : List (List (ρ × ℕ)) :=
  parts.map fun p => p.filter fun r => decide (grp r.1 = some g) || decide (grp r.1 = some c)

/-- `inf_full = zeros(n_total)`, `inf_full[ids_part] = if_part`, `dask/_ddd_streaming.py:1505-1510`, `spark/_ddd_streaming.py:1453-1466`:
an index not below the length raises. -/
def scatter {K : Type*} [Zero K] (n : ℕ) (ids : List ℕ) (f : ℕ → K) : Except Raise (List K) :=
  if ids.any (fun i => decide (n ≤ i)) then .error .indexError
  else .ok ((List.range n).map fun i => if i ∈ ids then f i else 0)

/-- One control of `streaming_ddd_rc_cell_multi_control`, `dask/_ddd_streaming.py:812-826`: `est` is the estimation from the filtered
partitions (`None` when the comparison has no valid fit or, on Dask, when the first partition is empty), giving the estimate and the
influence value of each position. -/
def rcControl {ρ K : Type*} [Field K] (est : List (List (ρ × ℕ)) → Option (K × (ℕ → K))) (grp : ρ → Option ℤ) (g : ℤ)
    (parts : List (List ρ)) (c : ℤ) : Except Raise (Option (K × List K)) :=
  let sub := ctrlRows grp g c (numbered 0 parts)
  match est sub with
  | none => .ok none
  | some (a, f) =>
    let n := (sub.map List.length).sum
    match scatter n (sub.flatten.map Prod.snd) f with
    | .error e => .error e
    | .ok l => .ok (some (a, l.map fun v => if 0 < n then (((parts.map List.length).sum : ℕ) : K) / (n : K) * v else v))

/-- `streaming_ddd_rc_cell_multi_control`, `dask/_ddd_streaming.py:783-846`, `spark/_ddd_streaming.py:768-832`, up to the combination:
the columns that enter `_gmm_aggregate`; `np.column_stack` raises unless they have equal length. -/
def rcMulti {ρ K : Type*} [Field K] (est : List (List (ρ × ℕ)) → Option (K × (ℕ → K))) (grp : ρ → Option ℤ) (g : ℤ)
    (parts : List (List ρ)) (controls : List ℤ) : Except Raise (Option (List (K × List K))) :=
  match controls.mapM (rcControl est grp g parts) with
  | .error e => .error e
  | .ok rs =>
    match rs.filterMap id with
    | [] => .ok none
    | r :: l => if l.all (fun q => decide (q.2.length = r.2.length)) then .ok (some (r :: l)) else .error .valueError

/-- One cell on repeated cross-sections with not-yet-treated controls, `dask/_ddd_mp.py:673-738`, `spark/_ddd_mp.py:694-758`.  With one
control the call passes `control_group=`, which `streaming_ddd_rc_cell_single_control` does not accept (`dask/_ddd_streaming.py:484-504`,
`spark/_ddd_streaming.py:476-496`). -/
def rcNotYetCell {ρ K : Type*} [Field K] (est : ℤ → ℤ → ℤ → List (List (ρ × ℕ)) → Option (K × (ℕ → K))) (grp : ρ → Option ℤ)
    (cellParts : ℤ → ℤ → ℤ → List (List ρ)) (cohorts : List (Option ℤ)) (s : ℤ × ℤ × ℤ) : Except Raise (Option (List (K × List K))) :=
  match controlsD cohorts s.1 s.2.1 s.2.2 with
  | [] => .ok none
  | [_] => .error .typeError
  | cs => rcMulti (est s.1 s.2.1 s.2.2) grp s.1 (cellParts s.1 s.2.1 s.2.2) cs

/-- The loop over cells, `dask/_ddd_mp.py:241-287`: an exception in any cohort is raised again by `future.result()`. -/
def rcNotYet {ρ K : Type*} [Field K] (est : ℤ → ℤ → ℤ → List (List (ρ × ℕ)) → Option (K × (ℕ → K))) (grp : ρ → Option ℤ)
    (cellParts : ℤ → ℤ → ℤ → List (List ρ)) (universal : Bool) (tlist : List ℤ) (cohorts : List (Option ℤ)) :
    Except Raise (List (Option (List (K × List K)))) :=
  (computeCells universal tlist (glistD cohorts)).mapM (rcNotYetCell est grp cellParts cohorts)

/-! ## C180 -/

lemma mapM_error {α β ε : Type*} (f : α → Except ε β) (l : List α) (a : α) (ha : a ∈ l) (h : ∃ e, f a = .error e) :
    ∃ e, l.mapM f = .error e := by
  induction l with
  | nil => cases ha
  | cons b l ih =>
    rw [List.mapM_cons]
    cases hb : f b with
    | error e => exact ⟨e, rfl⟩
    | ok v =>
      rcases List.mem_cons.1 ha with rfl | ha
      · obtain ⟨e, he⟩ := h
        rw [he] at hb; cases hb
      · obtain ⟨e, he⟩ := ih ha
        exact ⟨e, by rw [he]; rfl⟩

lemma mem_uniqueSorted (l : List ℤ) (a : ℤ) : a ∈ Agg.uniqueSorted l ↔ a ∈ l := by
  unfold Agg.uniqueSorted
  simp

lemma nodup_uniqueSorted (l : List ℤ) : (Agg.uniqueSorted l).Nodup := by
  unfold Agg.uniqueSorted
  exact (List.perm_insertionSort _ _).nodup_iff.2 (List.nodup_dedup _)

theorem mem_controlsD (cohorts : List (Option ℤ)) (g t pret c : ℤ) :
    c ∈ controlsD cohorts g t pret ↔ some c ∈ cohorts ∧ c ≠ g ∧ (c = 0 ∨ max t pret < c) := by
  unfold controlsD
  rw [mem_uniqueSorted]
  simp [List.mem_filterMap]

theorem mem_glistD (cohorts : List (Option ℤ)) (g : ℤ) : g ∈ glistD cohorts ↔ some g ∈ cohorts ∧ 0 < g := by
  unfold glistD
  rw [mem_uniqueSorted]
  simp [List.mem_filterMap]

lemma numbered_flatten {ρ : Type*} (o : ℕ) (parts : List (List ρ)) : (numbered o parts).flatten = parts.flatten.zipIdx o := by
  induction parts generalizing o with
  | nil => rfl
  | cons p ps ih =>
    rw [numbered, List.flatten_cons, List.flatten_cons, ih, List.zipIdx_append]

lemma ctrlRows_flatten {ρ : Type*} (grp : ρ → Option ℤ) (g c : ℤ) (parts : List (List ρ)) :
    (ctrlRows grp g c (numbered 0 parts)).flatten =
      (parts.flatten.zipIdx).filter fun r => decide (grp r.1 = some g) || decide (grp r.1 = some c) := by
  unfold ctrlRows
  rw [← numbered_flatten, List.filter_flatten]

/-- Positions of the rows of a cell that belong to cohort `g` or to control `c`. -/
def keptPositions {ρ : Type*} (grp : ρ → Option ℤ) (g c : ℤ) (rows : List ρ) : Finset ℕ :=
  (Finset.range rows.length).filter fun i => ∃ r, rows[i]? = some r ∧ (grp r = some g ∨ grp r = some c)

lemma kept_ids {ρ : Type*} (grp : ρ → Option ℤ) (g c : ℤ) (parts : List (List ρ)) :
    ((ctrlRows grp g c (numbered 0 parts)).flatten.map Prod.snd).toFinset = keptPositions grp g c parts.flatten ∧
    ((ctrlRows grp g c (numbered 0 parts)).flatten.map Prod.snd).Nodup := by
  rw [ctrlRows_flatten]
  constructor
  · ext i
    simp only [List.mem_toFinset, List.mem_map, List.mem_filter, Bool.or_eq_true, decide_eq_true_eq, keptPositions, Finset.mem_filter,
      Finset.mem_range]
    constructor
    · rintro ⟨⟨r, j⟩, ⟨hm, hg⟩, rfl⟩
      rw [List.mem_zipIdx_iff_getElem?] at hm
      simp only at hm
      have := (List.getElem?_eq_some_iff.1 hm).1
      exact ⟨this, r, hm, hg⟩
    · rintro ⟨_, r, hr, hg⟩
      exact ⟨(r, i), ⟨by rw [List.mem_zipIdx_iff_getElem?]; exact hr, hg⟩, rfl⟩
  · have h : (parts.flatten.zipIdx.map Prod.snd).Nodup := by
      rw [List.zipIdx_map_snd]
      exact List.nodup_range'
    exact h.sublist (List.Sublist.map _ List.filter_sublist)

lemma kept_count {ρ : Type*} (grp : ρ → Option ℤ) (g c : ℤ) (parts : List (List ρ)) :
    ((ctrlRows grp g c (numbered 0 parts)).map List.length).sum = (keptPositions grp g c parts.flatten).card := by
  rw [← List.length_flatten, ← (kept_ids grp g c parts).1, List.toFinset_card_of_nodup (kept_ids grp g c parts).2, List.length_map]

/-- C180: one control goes through exactly when the rows of the cohort and of the control are the first rows of the cell. -/
theorem C180_prefix {ρ K : Type*} [Field K] (est : List (List (ρ × ℕ)) → Option (K × (ℕ → K))) (grp : ρ → Option ℤ) (g c : ℤ)
    (parts : List (List ρ)) (hest : (est (ctrlRows grp g c (numbered 0 parts))).isSome) :
    (∃ r, rcControl est grp g parts c = .ok r) ↔
      keptPositions grp g c parts.flatten = Finset.range (keptPositions grp g c parts.flatten).card := by
  obtain ⟨⟨a, f⟩, he⟩ := Option.isSome_iff_exists.1 hest
  unfold rcControl
  simp only [he, kept_count]
  unfold scatter
  have hids := (kept_ids grp g c parts).1
  by_cases hany : ((ctrlRows grp g c (numbered 0 parts)).flatten.map Prod.snd).any
      (fun i => decide ((keptPositions grp g c parts.flatten).card ≤ i)) = true
  · rw [if_pos hany]
    simp only [reduceCtorEq, exists_false, false_iff]
    intro heq
    obtain ⟨i, hi, hle⟩ := List.any_eq_true.1 hany
    have hm : i ∈ keptPositions grp g c parts.flatten := by rw [← hids]; exact List.mem_toFinset.2 hi
    rw [heq, Finset.mem_range] at hm
    simp only [decide_eq_true_eq] at hle
    omega
  · rw [if_neg hany]
    simp only [Except.ok.injEq, exists_eq', true_iff]
    refine Finset.eq_of_subset_of_card_le ?_ (by rw [Finset.card_range])
    intro i hi
    rw [Finset.mem_range]
    by_contra hlt
    apply hany
    rw [List.any_eq_true]
    refine ⟨i, ?_, by simpa using hlt⟩
    rw [← hids] at hi
    exact List.mem_toFinset.1 hi

/-- C180 violated, several controls: on repeated cross-sections with not-yet-treated controls, whenever two different controls occur in a
cell and both can be estimated, the call raises instead of combining them, whatever the order and the partitioning of the rows. -/
theorem C180_multi_violated {ρ K : Type*} [Field K] (est : List (List (ρ × ℕ)) → Option (K × (ℕ → K))) (grp : ρ → Option ℤ) (g : ℤ)
    (parts : List (List ρ)) (controls : List ℤ) (c d : ℤ) (hc : c ∈ controls) (hd : d ∈ controls) (hcd : c ≠ d) (hcg : c ≠ g) (hdg : d ≠ g)
    (rc : ∃ r ∈ parts.flatten, grp r = some c) (rd : ∃ r ∈ parts.flatten, grp r = some d)
    (ec : (est (ctrlRows grp g c (numbered 0 parts))).isSome) (ed : (est (ctrlRows grp g d (numbered 0 parts))).isSome) :
    ∃ e, rcMulti est grp g parts controls = .error e := by
  have hbad : (∃ e, rcControl est grp g parts c = .error e) ∨ ∃ e, rcControl est grp g parts d = .error e := by
    by_contra hno
    push Not at hno
    have ok : ∀ x, (∀ e, rcControl est grp g parts x ≠ .error e) → ∃ r, rcControl est grp g parts x = .ok r := by
      intro x hx
      cases h : rcControl est grp g parts x with
      | error e => exact absurd h (hx e)
      | ok r => exact ⟨r, rfl⟩
    have k1 := (C180_prefix est grp g c parts ec).1 (ok c hno.1)
    have k2 := (C180_prefix est grp g d parts ed).1 (ok d hno.2)
    have only : ∀ x y : ℤ, x ≠ y → x ≠ g → (∃ r ∈ parts.flatten, grp r = some x) →
        ¬ keptPositions grp g x parts.flatten ⊆ keptPositions grp g y parts.flatten := by
      rintro x y hxy hxg ⟨r, hr, hgx⟩ hsub
      obtain ⟨i, hi, rfl⟩ := List.getElem_of_mem hr
      have hm : i ∈ keptPositions grp g x parts.flatten := by
        refine Finset.mem_filter.2 ⟨Finset.mem_range.2 hi, _, List.getElem?_eq_getElem hi, Or.inr hgx⟩
      obtain ⟨_, r', hr', hg'⟩ := Finset.mem_filter.1 (hsub hm)
      rw [List.getElem?_eq_getElem hi, Option.some.injEq] at hr'
      rw [← hr', hgx] at hg'
      rcases hg' with h | h
      · exact hxg (Option.some.inj h)
      · exact hxy (Option.some.inj h)
    rcases le_total (keptPositions grp g c parts.flatten).card (keptPositions grp g d parts.flatten).card with h | h
    · exact only c d hcd hcg rc (by rw [k1, k2]; exact Finset.range_subset_range.2 h)
    · exact only d c hcd.symm hdg rd (by rw [k1, k2]; exact Finset.range_subset_range.2 h)
  have : ∃ e, controls.mapM (rcControl est grp g parts) = .error e := by
    rcases hbad with h | h
    · exact mapM_error _ _ c hc h
    · exact mapM_error _ _ d hd h
  obtain ⟨e, he⟩ := this
  exact ⟨e, by unfold rcMulti; rw [he]⟩

/-- A cell that meets the hypotheses: rows of the treated cohort 3 and of two controls, 0 and 5, in two partitions. -/
example : ∃ e, rcMulti (ρ := Option ℤ) (K := ℚ) (fun _ => some (1, fun _ => 0)) id 3 [[some 3, some 0], [some 5, some 3]] [0, 5] = .error e :=
  C180_multi_violated _ _ _ _ _ 0 5 (by decide) (by decide) (by decide) (by decide) (by decide) ⟨some 0, by decide, rfl⟩
    ⟨some 5, by decide, rfl⟩ rfl rfl

/-- A single control in front goes through: the criterion of `C180_prefix` is not empty. -/
example : keptPositions (id : Option ℤ → Option ℤ) 3 0 [some 3, some 0, some 5] =
    Finset.range (keptPositions (id : Option ℤ → Option ℤ) 3 0 [some 3, some 0, some 5]).card := by decide

lemma lastPre_some (tlist : List ℤ) (g s : ℤ) (hs : s ∈ tlist) (hsg : s < g) : ∃ p, Triple.lastPre tlist g = some p ∧ p < g := by
  unfold Triple.lastPre
  have hne : (tlist.filter fun x => decide (x < g)) ≠ [] := by
    intro h
    have : s ∈ tlist.filter fun x => decide (x < g) := List.mem_filter.2 ⟨hs, by simpa using hsg⟩
    rw [h] at this; cases this
  refine ⟨_, List.getLast?_eq_getLast_of_ne_nil hne, ?_⟩
  have := List.mem_filter.1 (List.getLast_mem hne)
  simpa using this.2

/-- The cell of a cohort treated by the last period, at the last period, is computed. -/
lemma last_cell (universal : Bool) (tlist : List ℤ) (glist : List ℤ) (g T s : ℤ) (hg : g ∈ glist) (hT : tlist.getLast? = some T)
    (hgT : g ≤ T) (hs : s ∈ tlist) (hsg : s < g) :
    ∃ p, (g, T, p) ∈ computeCells universal tlist glist ∧ p < g := by
  obtain ⟨p, hp, hpg⟩ := lastPre_some tlist g s hs hsg
  have hlen : 2 ≤ tlist.length := by
    by_contra hl
    match tlist, hs, hT with
    | [x], hs, hT =>
      simp only [List.getLast?_singleton, Option.some.injEq] at hT
      simp only [List.mem_singleton] at hs
      omega
    | x :: y :: l, _, _ => simp at hl
  have hTi : tlist[tlist.length - 1]? = some T := by rw [← List.getLast?_eq_getElem?]; exact hT
  refine ⟨p, ?_, hpg⟩
  unfold computeCells
  simp only [List.mem_flatMap, List.mem_filterMap, List.mem_range]
  refine ⟨g, hg, tlist.length - 1 - (if universal then 0 else 1), by split_ifs <;> omega, ?_⟩
  have hidx : tlist.length - 1 - (if universal then 0 else 1) + (if universal then 0 else 1) = tlist.length - 1 := by split_ifs <;> omega
  simp only [hidx, hTi, Option.getD_some]
  unfold Triple.pretOf Triple.basePeriod
  cases universal with
  | true =>
    simp only [if_true, hp, if_pos hgT, Bool.true_and, decide_eq_true_eq]
    rw [if_neg (by omega)]
  | false =>
    have hb : ∃ b, tlist[tlist.length - 1 - 1]? = some b := ⟨_, List.getElem?_eq_getElem (by omega)⟩
    obtain ⟨b, hb⟩ := hb
    simp [hb, hgT, hp]

/-- C180 violated, one control: in the common design with never-treated units coded 0 in which no cohort is first treated after the last
period, the distributed call on repeated cross-sections with not-yet-treated controls raises as soon as one cohort has an earlier period,
whatever the estimator, the data and the partitioning: at the last period the never-treated are the only control, and that branch cannot be
called. -/
theorem C180_last_period_violated {ρ K : Type*} [Field K] (est : ℤ → ℤ → ℤ → List (List (ρ × ℕ)) → Option (K × (ℕ → K)))
    (grp : ρ → Option ℤ) (cellParts : ℤ → ℤ → ℤ → List (List ρ)) (universal : Bool) (tlist : List ℤ) (cohorts : List (Option ℤ)) (T g s : ℤ)
    (hT : tlist.getLast? = some T) (h0 : some 0 ∈ cohorts) (hlast : ∀ c, some c ∈ cohorts → c ≤ T) (hg : some g ∈ cohorts) (hpos : 0 < g)
    (hs : s ∈ tlist) (hsg : s < g) :
    ∃ e, rcNotYet est grp cellParts universal tlist cohorts = .error e := by
  obtain ⟨p, hp, hpg⟩ := last_cell universal tlist (glistD cohorts) g T s ((mem_glistD _ _).2 ⟨hg, hpos⟩) hT (hlast g hg) hs hsg
  refine mapM_error _ _ _ hp ⟨.typeError, ?_⟩
  have hc : controlsD cohorts g T p = [0] := by
    have hall : ∀ c, c ∈ controlsD cohorts g T p ↔ c = 0 := by
      intro c
      rw [mem_controlsD]
      constructor
      · rintro ⟨hc, _, h | h⟩
        · exact h
        · have := hlast c hc
          have := le_max_left T p
          omega
      · rintro rfl
        exact ⟨h0, by omega, Or.inl rfl⟩
    have hnd : (controlsD cohorts g T p).Nodup := nodup_uniqueSorted _
    have hperm : (controlsD cohorts g T p).Perm [0] := (List.perm_ext_iff_of_nodup hnd (by simp)).2 fun c => by rw [hall]; simp
    exact List.perm_singleton.1 hperm
  unfold rcNotYetCell
  simp only [hc]

example : ∃ e, rcNotYet (ρ := Option ℤ) (K := ℚ) (fun _ _ _ _ => none) id (fun _ _ _ => []) false [1, 2, 3] [some 0, some 2, some 3, none] = .error e :=
  C180_last_period_violated _ _ _ false _ _ 3 2 1 rfl (by simp) (by simp) (by simp) (by norm_num) (by simp) (by norm_num)

/-! ## C181: placement of the rows -/

section Placement

variable {ρ R : Type*}

/-- Rows of the cohort and of one control, partition by partition, `_filter_partition_for_ctrl`, `_ddd_partition.py:148-174` (an empty list
is `None`). -/
def ctrlPart (grp : ρ → Option ℤ) (g c : ℤ) (parts : List (List ρ)) : List (List ρ) :=
  parts.map fun p => p.filter fun r => decide (grp r = some g) || decide (grp r = some c)

/-- The controls that enter the combination on Dask, `dask/_ddd_streaming.py:396-416,812-821`: a control is skipped when the first partition
has no row of the cohort or of the control. -/
def daskControls (est : List (List ρ) → Option R) (grp : ρ → Option ℤ) (g : ℤ) (parts : List (List ρ)) (controls : List ℤ) : List (ℤ × R) :=
  controls.filterMap fun c =>
    match ctrlPart grp g c parts with
    | [] => none
    | first :: rest => if first.isEmpty then none else (est (first :: rest)).map fun r => (c, r)

/-- The same on Spark, `spark/_ddd_streaming.py:391-414,795-807`: empty partitions are removed first. -/
def sparkControls (est : List (List ρ) → Option R) (grp : ρ → Option ℤ) (g : ℤ) (parts : List (List ρ)) (controls : List ℤ) : List (ℤ × R) :=
  controls.filterMap fun c =>
    match (ctrlPart grp g c parts).filter fun p => !p.isEmpty with
    | [] => none
    | ps => (est ps).map fun r => (c, r)

/-- The never-treated panel path on Dask, `dask/_ddd_mp.py:485-567`: `_build_ddd_base_partition` returns `None` for an empty partition, and
`first_base["X"]` (the first one) or `{**base_dict, ...}` (any) raises `TypeError`.  `none` is the exception. -/
def daskNever (est : List (List ρ) → Option R) (parts : List (List ρ)) : Option (Option R) :=
  if parts.any List.isEmpty then none else some (est parts)

/-- The same on Spark, `spark/_ddd_mp.py:521-590`. -/
def sparkNever (est : List (List ρ) → Option R) (parts : List (List ρ)) : Option (Option R) :=
  match parts.filter fun p => !p.isEmpty with
  | [] => some none
  | ps => some (est ps)

lemma flatten_nonempty (parts : List (List ρ)) : (parts.filter fun p => !p.isEmpty).flatten = parts.flatten := by
  induction parts with
  | nil => rfl
  | cons p l ih =>
    rw [List.filter_cons]
    cases p with
    | nil => simpa using ih
    | cons a p => simp [ih]

lemma ctrlPart_flatten (grp : ρ → Option ℤ) (g c : ℤ) (parts : List (List ρ)) :
    (ctrlPart grp g c parts).flatten = parts.flatten.filter fun r => decide (grp r = some g) || decide (grp r = some c) := by
  unfold ctrlPart
  rw [List.filter_flatten]

/-- What the result should be: a function of the rows of the cell, in which a control takes part exactly when it can be estimated. -/
def controlsSpec (est : List ρ → Option R) (grp : ρ → Option ℤ) (g : ℤ) (rows : List ρ) (controls : List ℤ) : List (ℤ × R) :=
  controls.filterMap fun c =>
    (est (rows.filter fun r => decide (grp r = some g) || decide (grp r = some c))).map fun r => (c, r)

/-- C181: on Spark the controls that enter and their estimates do not depend on how the rows are partitioned, given a cell estimator that does
not (C178) and that returns nothing without rows. -/
theorem C181_spark (est : List (List ρ) → Option R) (est' : List ρ → Option R) (hest : ∀ ps, est ps = est' ps.flatten) (h0 : est' [] = none)
    (grp : ρ → Option ℤ) (g : ℤ) (parts : List (List ρ)) (controls : List ℤ) :
    sparkControls est grp g parts controls = controlsSpec est' grp g parts.flatten controls := by
  unfold sparkControls controlsSpec
  congr 1
  funext c
  rw [← ctrlPart_flatten, ← flatten_nonempty (ctrlPart grp g c parts)]
  cases h : (ctrlPart grp g c parts).filter fun p => !p.isEmpty with
  | nil => simp [h0]
  | cons p l => simp only [hest]

/-- C181: the same on Dask when the first partition holds a row of the treated cohort. -/
theorem C181_dask (est : List (List ρ) → Option R) (est' : List ρ → Option R) (hest : ∀ ps, est ps = est' ps.flatten)
    (grp : ρ → Option ℤ) (g : ℤ) (p : List ρ) (parts : List (List ρ)) (controls : List ℤ) (hp : ∃ r ∈ p, grp r = some g) :
    daskControls est grp g (p :: parts) controls = controlsSpec est' grp g (p :: parts).flatten controls := by
  unfold daskControls controlsSpec
  congr 1
  funext c
  rw [← ctrlPart_flatten]
  obtain ⟨r, hr, hg⟩ := hp
  have hne : (p.filter fun r => decide (grp r = some g) || decide (grp r = some c)).isEmpty = false := by
    rw [List.isEmpty_eq_false_iff_exists_mem]
    exact ⟨r, List.mem_filter.2 ⟨hr, by simp [hg]⟩⟩
  unfold ctrlPart
  simp only [List.map_cons, hne, Bool.false_eq_true, if_false, hest]

/-- C181 violated: a control that can be estimated is left out on Dask exactly when the first partition has no row of the cohort or of that
control. -/
theorem C181_dask_violated (est : List (List ρ) → Option R) (grp : ρ → Option ℤ) (g : ℤ) (p : List ρ) (parts : List (List ρ))
    (controls : List ℤ) (c : ℤ) (hc : c ∈ controls) (hok : (est (ctrlPart grp g c (p :: parts))).isSome) :
    c ∉ (daskControls est grp g (p :: parts) controls).map Prod.fst ↔ ∀ r ∈ p, grp r ≠ some g ∧ grp r ≠ some c := by
  have key : c ∈ (daskControls est grp g (p :: parts) controls).map Prod.fst ↔
      (p.filter fun r => decide (grp r = some g) || decide (grp r = some c)).isEmpty = false := by
    obtain ⟨v, hv⟩ := Option.isSome_iff_exists.1 hok
    unfold daskControls
    simp only [List.mem_map, List.mem_filterMap]
    constructor
    · rintro ⟨⟨c', r⟩, ⟨d, hd, hm⟩, hcc⟩
      simp only at hcc
      subst hcc
      unfold ctrlPart at hm
      simp only [List.map_cons] at hm
      split_ifs at hm with he
      obtain ⟨w, hw, hpair⟩ := Option.map_eq_some_iff.1 hm
      cases hpair
      simpa using he
    · intro he
      refine ⟨(c, v), ⟨c, hc, ?_⟩, rfl⟩
      unfold ctrlPart at hv ⊢
      simp only [List.map_cons] at hv ⊢
      rw [he]
      simp [hv]
  rw [key, Bool.not_eq_false, List.isEmpty_iff, List.filter_eq_nil_iff]
  refine forall_congr' fun r => forall_congr' fun _ => ?_
  simp [not_or]

/-- Two partitionings of the same rows, two estimates: with the rows of another control alone in the first partition the control 0 is lost. -/
example : daskControls (fun ps => if ps.flatten.isEmpty then none else some ps.flatten.length) id (3 : ℤ)
      [[some 3, some 5], [some 0]] [0, 5] = [(0, 2), (5, 2)] ∧
    daskControls (fun ps => if ps.flatten.isEmpty then none else some ps.flatten.length) id (3 : ℤ)
      [[some 5], [some 3, some 0]] [0, 5] = [(5, 2)] := by decide

/-- C181: the never-treated path gives the same result on Spark for every partitioning, given a partition-independent cell estimator. -/
theorem C181_never_spark (est : List (List ρ) → Option R) (est' : List ρ → Option R) (hest : ∀ ps, est ps = est' ps.flatten)
    (h0 : est' [] = none) (parts : List (List ρ)) : sparkNever est parts = some (est' parts.flatten) := by
  unfold sparkNever
  rw [← flatten_nonempty parts]
  cases h : parts.filter fun p => !p.isEmpty with
  | nil => simp [h0]
  | cons p l => simp only [hest]

lemma exists_empty (parts : List (List ρ)) (h : parts.flatten.length < parts.length) : parts.any List.isEmpty = true := by
  induction parts with
  | nil => simp at h
  | cons p l ih =>
    cases p with
    | nil => rfl
    | cons a p =>
      simp only [List.flatten_cons, List.length_append, List.length_cons] at h
      rw [List.any_cons, ih (by omega), Bool.or_true]

/-- C181 violated: on Dask the never-treated path raises exactly when some partition is empty, hence always when a cohort and its controls
have fewer units than there are partitions. -/
theorem C181_never_dask_violated (est : List (List ρ) → Option R) (parts : List (List ρ)) :
    (daskNever est parts = none ↔ [] ∈ parts) ∧ (parts.flatten.length < parts.length → daskNever est parts = none) := by
  have h1 : daskNever est parts = none ↔ parts.any List.isEmpty = true := by
    unfold daskNever
    split_ifs with h <;> simp [h]
  refine ⟨?_, fun h => h1.2 (exists_empty parts h)⟩
  rw [h1, List.any_eq_true]
  constructor
  · rintro ⟨p, hp, he⟩
    rw [List.isEmpty_iff] at he
    exact he ▸ hp
  · intro h
    exact ⟨[], h, rfl⟩

example : daskNever (fun ps : List (List ℕ) => some ps.flatten.length) [[1, 2], [], [3]] = none ∧
    sparkNever (fun ps : List (List ℕ) => some ps.flatten.length) [[1, 2], [], [3]] = some (some 3) := by decide

end Placement

/-! ## C182: which units are compared -/

/-- Rows of a never-treated comparison, `dask/_ddd_streaming.py:922-923`, `dask/_utils.py` (`prepare_cohort_wide_pivot`): `G == 0 | G == g`. -/
def neverRows {ρ : Type*} (grp : ρ → Option ℤ) (g : ℤ) (rows : List ρ) : List ρ :=
  rows.filter fun r => decide (grp r = some 0) || decide (grp r = some g)

/-- C182: among cohorts with a finite code, the distributed code and the single-machine code use the same comparison cohorts: a finite
control of the single-machine cell is an available control of the distributed code, and conversely unless it has no row in the two periods. -/
theorem C182_controls {K : Type*} [Field K] (data : List (Triple.Row K)) (g t pret c : ℤ) :
    some c ∈ Triple.availableControls g (Triple.cellData true g t pret data) ↔
      c ∈ controlsD (data.map Triple.Row.g) g t pret ∧ ∃ r ∈ data, r.g = some c ∧ (r.time = t ∨ r.time = pret) := by
  unfold Triple.availableControls Triple.cellData
  rw [mem_controlsD]
  simp only [List.mem_dedup, List.mem_map, List.mem_filter, decide_eq_true_eq, Bool.and_eq_true, Bool.or_eq_true, Triple.isControl, if_true,
    ne_eq]
  constructor
  · rintro ⟨r, ⟨⟨hr, hc, ht⟩, hne⟩, hg⟩
    refine ⟨⟨⟨r, hr, hg⟩, fun h => hne (by rw [hg, h]), ?_⟩, r, hr, hg, ht⟩
    rcases hc with h | ⟨h, _⟩
    · exact absurd h hne
    · rw [hg] at h
      simpa [Triple.neverTreated, Triple.laterThan] using h
  · rintro ⟨⟨_, hcg, hco⟩, r, hr, hg, ht⟩
    have hne : r.g ≠ some g := by rw [hg]; simpa using hcg
    refine ⟨r, ⟨⟨hr, Or.inr ⟨?_, hne⟩, ht⟩, hne⟩, hg⟩
    rw [hg]
    simpa [Triple.neverTreated, Triple.laterThan] using hco

/-- C182: with a never-treated comparison the rows used agree when no cohort has a non-finite code. -/
theorem C182_never {K : Type*} [Field K] (data : List (Triple.Row K)) (g t pret : ℤ) (hfin : ∀ r ∈ data, r.g ≠ none) :
    Triple.cellData false g t pret data =
      (neverRows Triple.Row.g g data).filter fun r => decide (r.time = t) || decide (r.time = pret) := by
  unfold Triple.cellData neverRows
  rw [List.filter_filter]
  apply List.filter_congr
  intro r hr
  cases hg : r.g with
  | none => exact absurd hg (hfin r hr)
  | some x =>
    simp only [Triple.isControl, Triple.neverTreated, Bool.false_eq_true, if_false, Option.some.injEq]
    rw [Bool.and_comm, Bool.or_comm (decide (x = g))]

/-- C182 violated: never-treated units coded as infinity are a control on a single machine and never one in the distributed code: not among
the not-yet-treated controls, and not among the rows of a never-treated comparison, which then consists of the treated cohort alone. -/
theorem C182_infinity_violated {K : Type*} [Field K] (data : List (Triple.Row K)) (g t pret : ℤ)
    (hinf : ∃ r ∈ data, r.g = none ∧ r.time = t) :
    none ∈ Triple.availableControls g (Triple.cellData true g t pret data) ∧
    none ∈ Triple.availableControls g (Triple.cellData false g t pret data) ∧
    (∀ c ∈ (controlsD (data.map Triple.Row.g) g t pret).map some, c ≠ none) ∧
    (∀ r ∈ neverRows Triple.Row.g g data, r.g ≠ none) ∧
    ((∀ r ∈ data, r.g ≠ some 0) → ∀ r ∈ neverRows Triple.Row.g g data, r.g = some g) := by
  obtain ⟨r, hr, hg, ht⟩ := hinf
  have av : ∀ b, none ∈ Triple.availableControls g (Triple.cellData b g t pret data) := by
    intro b
    unfold Triple.availableControls Triple.cellData
    simp only [List.mem_dedup, List.mem_map, List.mem_filter]
    refine ⟨r, ⟨⟨hr, ?_⟩, by simp [hg]⟩, hg⟩
    cases b <;> simp [hg, ht, Triple.isControl, Triple.neverTreated]
  refine ⟨av true, av false, ?_, ?_, ?_⟩
  · intro c hc
    obtain ⟨x, _, rfl⟩ := List.mem_map.1 hc
    simp
  · intro r hr h
    obtain ⟨_, h2⟩ := List.mem_filter.1 hr
    simp [h] at h2
  · intro h0 r hr
    obtain ⟨hm, h2⟩ := List.mem_filter.1 hr
    have := h0 r hm
    simpa [this] using h2

example : none ∈ Triple.availableControls 3 (Triple.cellData true 3 3 2 [(⟨1, 3, some 3, true, 0⟩ : Triple.Row ℚ), ⟨2, 3, none, true, 0⟩]) ∧
    controlsD ([(⟨1, 3, some 3, true, 0⟩ : Triple.Row ℚ), ⟨2, 3, none, true, 0⟩].map Triple.Row.g) 3 3 2 = [] :=
  ⟨(C182_infinity_violated _ 3 3 2 ⟨⟨2, 3, none, true, 0⟩, by simp, rfl, rfl⟩).1, by decide +kernel⟩

end Verif.Dist.DddDriver
