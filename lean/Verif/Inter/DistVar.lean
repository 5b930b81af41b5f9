import Verif.Inter.Dist
import Verif.Inter.VarCluster

/-!
# Distributed `did_multiplegt`, standard errors: C186, C187

`moderndid/distributed/_didinter_partition.py:435-737` and `moderndid/dask/_didinter_mp.py:557-711`, on the frame of
`Verif.Inter.Dist`.  `base` forgets the trend columns of a cell: the key of the switcher statistics is `(d_sq, F_g, d_fg)`
(line 480) while the other keys hold the trend columns (lines 498-503, 522-527).
-/

set_option linter.unusedSectionVars false
set_option linter.unusedSimpArgs false

namespace Verif.Inter

open Finset

variable {ι β δ γ κ χ K : Type*} [Fintype ι] [DecidableEq ι] [DecidableEq β] [DecidableEq δ] [DecidableEq γ] [DecidableEq κ]
  [DecidableEq χ] [Field K] [LinearOrder K]

/-- `{"weight_sum", "diff_sum", "count", "cluster_set"}`, lines 488-493. -/
structure Stat (γ K : Type*) where
  w : K
  d : K
  n : ℕ
  cl : Finset (Option γ)

section
variable (P : Frame ι β K) (o : Opt K) (h : ℕ) (D : P.Row → Option K) (part : ι → κ) (ks : List κ) (v : VOpt ι γ K)
  (base : β → δ)

/-- The statistics of a set of rows, lines 485-493 (and 509-517, 533-541). -/
def statOf (A : Finset P.Row) : Stat γ K where
  w := ∑ r ∈ A, P.w r.1 r.2
  d := ∑ r ∈ A, wdiffD P D r
  n := A.card
  cl := match v.cluster with
    | none => ∅
    | some c => A.image fun r => c r.1

/-- One section of `partition_dof_stats`, lines 477-543: the rows of a partition selected by `sel`, by key. -/
def partStat (sel : P.Row → Bool) (key : P.Row → χ) (k : κ) : χ → Option (Stat γ K) := fun x =>
  if ((rowsIn P part k).filter fun r => sel r = true ∧ key r = x).card = 0 then none
  else some (statOf P D v ((rowsIn P part k).filter fun r => sel r = true ∧ key r = x))

/-- One section of `reduce_dof_stats`, lines 546-565. -/
def mergeStat (a b : χ → Option (Stat γ K)) : χ → Option (Stat γ K) := fun x =>
  match a x, b x with
  | some s, some t => some ⟨s.w + t.w, s.d + t.d, s.n + t.n, s.cl ∪ t.cl⟩
  | some s, none => some s
  | none, t => t

/-- One section of `global_dof`, `_didinter_mp.py:548`. -/
def globalStat (sel : P.Row → Bool) (key : P.Row → χ) : χ → Option (Stat γ K) :=
  reduceOr mergeStat (fun _ => none) (ks.map (partStat P D part v sel key))

/-- `s_mean_val` and its siblings, `_didinter_partition.py:659-661, 680-682, 685-687`: a missing entry has the mean 0/1. -/
def meanStat (s : Option (Stat γ K)) : K :=
  match s with
  | none => 0
  | some s => if 0 < s.w then s.d / s.w else 0

/-- `s_dof_val` and its siblings, lines 658, 679, 684. -/
def dofStat (s : Option (Stat γ K)) : ℕ :=
  match s with
  | none => 0
  | some s => if v.cluster.isSome then s.cl.card else s.n

/-- `is_switcher`, lines 467-469. -/
def isSwS (r : P.Row) : Bool := decide (distS P o h D part ks r = some 1)

/-- Key of the switcher section, line 480. -/
def swKey (r : P.Row) : δ × WithTop ℤ × Option K := (base (P.cell r.1), P.F r.1, v.dfg r.1)

/-- The switcher entry of a row, lines 650-664. -/
def statS (r : P.Row) : Option (Stat γ K) :=
  globalStat P D part ks v (isSwS P o h D part ks) (swKey P v base) (swKey P v base r)

/-- The control entry of a row, lines 676-690. -/
def statC (r : P.Row) : Option (Stat γ K) := globalStat P D part ks v (isCtD P o D) (keyOf P) (keyOf P r)

/-- The union entry of a row, lines 683-692. -/
def statU (r : P.Row) : Option (Stat γ K) :=
  globalStat P D part ks v (fun s => isSwS P o h D part ks s || isCtD P o D s) (keyOf P) (keyOf P r)

/-- `e_hat`, lines 694-702. -/
def eHatS (r : P.Row) : K :=
  let s := dofStat v (statS P o h D part ks v base r)
  let c := dofStat v (statC P o D part ks v r)
  let u := dofStat v (statU P o h D part ks v r)
  if atTarget P h r && decide (2 ≤ s) then meanStat (statS P o h D part ks v base r)
  else if beforeSwitch P r && decide (2 ≤ c) then meanStat (statC P o D part ks v r)
  else if (atTarget P h r && decide (s = 1) && decide (2 ≤ u)) || (beforeSwitch P r && decide (c = 1) && decide (2 ≤ u))
    then meanStat (statU P o h D part ks v r)
  else 0

/-- `dof_scale`, lines 704-715. -/
def dofScaleS (r : P.Row) : K :=
  let s := dofStat v (statS P o h D part ks v base r)
  let c := dofStat v (statC P o D part ks v r)
  let u := dofStat v (statU P o h D part ks v r)
  if v.less then 1
  else if atTarget P h r && decide (1 < s) then dofRoot v s
  else if beforeSwitch P r && decide (1 < c) then dofRoot v c
  else if (atTarget P h r && decide (s = 1) && decide (2 ≤ u)) || (beforeSwitch P r && decide (c = 1) && decide (2 ≤ u))
    then dofRoot v u
  else 1

/-- `T_g`, `_didinter_preprocess.py:402-408`: the maximum runs over the partition's units of the cell only. -/
def tGS (i : ι) : ℤ :=
  ((univ.filter fun j => part j = part i ∧ P.cell j = P.cell i).sup' ⟨i, by simp⟩ (fTrunc P)) - 1

/-- `dummy_u_gg * time_constraint`, `_didinter_partition.py:717-718`. -/
def windowS (r : P.Row) : Bool :=
  decide ((h : ℤ) ≤ tGS P part r.1 - 1) && (decide ((h : ℤ) + 1 ≤ P.time r) && decide (P.time r ≤ tGS P part r.1))

/-- `inf_var_temp`, lines 720-728. -/
def infVarS (N : K) (r : P.Row) : K :=
  (if windowS P h part r then 1 else 0) * (N / max (globalScalars P o h D part ks).1 o.eps) * P.w r.1 r.2
    * ((distS P o h D part ks r).getD 0 - nTreatedS P o h D part ks r
        / (if nControlS P o h D part ks r = 0 then 1 else nControlS P o h D part ks r) * (neverD P o D r).getD 0)
    * dofScaleS P o h D part ks v base r * ((D r).getD 0 - eHatS P o h D part ks v base r)

/-- `inf_var` of a unit, lines 730-735, placed into `inf_var_full` (`_didinter_mp.py:579-586, 603-608`). -/
def unitVarS (N : K) (i : ι) : K := ∑ k : Fin (P.n i), infVarS P o h D part ks v base N ⟨i, k⟩

/-- The standard error without clusters, `_didinter_mp.py:664`: the units dropped by the filters hold 0. -/
def plainSES (N : K) (ψ : ι → K) : K := v.sq (∑ i, ψ i ^ 2) / N

/-! ## The reduced statistics -/

variable (hn : ks.Nodup) (hc : ∀ r : P.Row, part r.1 ∈ ks)

theorem statOf_empty (x : Stat γ K) (A : Finset P.Row) (e : A.card = 0) (hx : x = statOf P D v A) :
    x.w = 0 ∧ x.d = 0 ∧ x.n = 0 ∧ x.cl = ∅ := by
  rw [card_eq_zero] at e
  subst e
  subst hx
  unfold statOf
  cases v.cluster <;> simp

/-- The rows of all partitions with a key. -/
def keyRows (sel : P.Row → Bool) (key : P.Row → χ) (x : χ) : Finset P.Row := univ.filter fun r => sel r = true ∧ key r = x

omit [DecidableEq γ] [DecidableEq δ] in
theorem part_rows (sel : P.Row → Bool) (key : P.Row → χ) (x : χ) (k : κ) :
    (rowsIn P part k).filter (fun r => sel r = true ∧ key r = x) =
      (keyRows P sel key x).filter fun r => part r.1 = k := by
  unfold rowsIn keyRows
  rw [filter_comm]

include hn hc in
theorem globalStat_some (sel : P.Row → Bool) (key : P.Row → χ) (x : χ) (hne : (keyRows P sel key x).card ≠ 0) :
    globalStat P D part ks v sel key x = some (statOf P D v (keyRows P sel key x)) := by
  have hsome : ∀ l : List κ, (∃ r ∈ keyRows P sel key x, part r.1 ∈ l) →
      (reduceOr mergeStat (fun _ => none) (l.map (partStat P D part v sel key)) x).isSome := by
    have key1 : ∀ (l : List (χ → Option (Stat γ K))) (a : χ → Option (Stat γ K)),
        ((a x).isSome ∨ ∃ b ∈ l, (b x).isSome) → (l.foldl mergeStat a x).isSome := by
      intro l
      induction l with
      | nil => intro a ha; simpa using ha
      | cons b l ih =>
        intro a ha
        rw [List.foldl_cons]
        apply ih
        unfold mergeStat
        simp only [List.mem_cons, exists_eq_or_imp] at ha
        rcases ha with ha | ha | ha
        · left; cases h1 : a x <;> cases h2 : b x <;> simp_all
        · left; cases h1 : a x <;> cases h2 : b x <;> simp_all
        · right; exact ha
    intro l
    rintro ⟨r, hr, hl⟩
    have hp : (partStat P D part v sel key (part r.1) x).isSome := by
      unfold partStat
      rw [part_rows, if_neg]
      · rfl
      · rw [card_eq_zero]
        intro e
        have : r ∈ (keyRows P sel key x).filter fun s => part s.1 = part r.1 := mem_filter.2 ⟨hr, rfl⟩
        rw [e] at this
        cases this
    cases l with
    | nil => cases hl
    | cons k l =>
      show ((l.map _).foldl mergeStat _ x).isSome
      apply key1
      rcases List.mem_cons.1 hl with e | e
      · left; rw [← e]; exact hp
      · right; exact ⟨_, List.mem_map.2 ⟨_, e, rfl⟩, hp⟩
  obtain ⟨r, hr⟩ := card_pos.1 (Nat.pos_of_ne_zero hne)
  obtain ⟨s, hs⟩ := Option.isSome_iff_exists.1 (hsome ks ⟨r, hr, hc r⟩)
  have hw := reduceOr_additive (M := K) (mergeStat (χ := χ) (γ := γ) (K := K)) (fun _ => none)
    (fun a => ((a x).map Stat.w).getD 0) (by simp)
    (by intro a b; unfold mergeStat; cases a x <;> cases b x <;> simp) (ks.map (partStat P D part v sel key))
  have hd := reduceOr_additive (M := K) (mergeStat (χ := χ) (γ := γ) (K := K)) (fun _ => none)
    (fun a => ((a x).map Stat.d).getD 0) (by simp)
    (by intro a b; unfold mergeStat; cases a x <;> cases b x <;> simp) (ks.map (partStat P D part v sel key))
  have hnn := reduceOr_additive (M := ℕ) (mergeStat (χ := χ) (γ := γ) (K := K)) (fun _ => none)
    (fun a => ((a x).map Stat.n).getD 0) (by simp)
    (by intro a b; unfold mergeStat; cases a x <;> cases b x <;> simp) (ks.map (partStat P D part v sel key))
  have hcl : ∀ g, g ∈ s.cl ↔ g ∈ (statOf P D v (keyRows P sel key x)).cl := by
    intro g
    have key2 : ∀ (l : List (χ → Option (Stat γ K))) (a : χ → Option (Stat γ K)),
        (∃ t, l.foldl mergeStat a x = some t ∧ g ∈ t.cl) ↔
          ((∃ t, a x = some t ∧ g ∈ t.cl) ∨ ∃ b ∈ l, ∃ t, b x = some t ∧ g ∈ t.cl) := by
      intro l
      induction l with
      | nil => intro a; simp
      | cons b l ih =>
        intro a
        rw [List.foldl_cons, ih]
        have : (∃ t, mergeStat a b x = some t ∧ g ∈ t.cl) ↔
            (∃ t, a x = some t ∧ g ∈ t.cl) ∨ ∃ t, b x = some t ∧ g ∈ t.cl := by
          unfold mergeStat
          cases a x <;> cases b x <;> simp
        rw [this]
        simp only [List.mem_cons, exists_eq_or_imp, or_assoc]
    have h3 : (∃ t, reduceOr mergeStat (fun _ => none) (ks.map (partStat P D part v sel key)) x = some t ∧ g ∈ t.cl) ↔
        ∃ k ∈ ks, ∃ t, partStat P D part v sel key k x = some t ∧ g ∈ t.cl := by
      cases ks with
      | nil => simp [reduceOr]
      | cons k l =>
        show (∃ t, (l.map _).foldl mergeStat _ x = some t ∧ g ∈ t.cl) ↔ _
        rw [key2]
        simp only [List.mem_map, exists_exists_and_eq_and, List.mem_cons, exists_eq_or_imp]
    have h4 : g ∈ s.cl ↔ ∃ t, reduceOr mergeStat (fun _ => none) (ks.map (partStat P D part v sel key)) x = some t ∧ g ∈ t.cl := by
      constructor
      · intro e; exact ⟨s, hs, e⟩
      · rintro ⟨t, ht, e⟩
        rw [hs] at ht
        rw [Option.some.inj ht]; exact e
    rw [h4, h3]
    unfold partStat
    simp only [part_rows]
    unfold statOf
    cases v.cluster with
    | none => simp
    | some c =>
      simp only [mem_image]
      constructor
      · rintro ⟨k, _, t, ht, hg⟩
        split at ht
        · cases ht
        · rw [← Option.some.inj ht] at hg
          simp only [mem_image] at hg
          obtain ⟨r, hr, e⟩ := hg
          exact ⟨r, (mem_filter.1 hr).1, e⟩
      · rintro ⟨r, hr, e⟩
        have hmem : r ∈ (keyRows P sel key x).filter fun s => part s.1 = part r.1 := mem_filter.2 ⟨hr, rfl⟩
        refine ⟨part r.1, hc r, _, if_neg ?_, ?_⟩
        · rw [card_eq_zero]; intro e'; rw [e'] at hmem; cases hmem
        · simp only [mem_image]; exact ⟨r, hmem, e⟩
  unfold globalStat
  rw [hs]
  simp only [hs, Option.map_some, Option.getD_some, List.map_map, Function.comp_def] at hw hd hnn
  have pw : ∀ k, ((partStat P D part v sel key k x).map Stat.w).getD 0 =
      ∑ r ∈ (keyRows P sel key x).filter (fun r => part r.1 = k), P.w r.1 r.2 := by
    intro k; unfold partStat; rw [part_rows]
    split
    · rename_i e; rw [card_eq_zero.1 e]; simp
    · rfl
  have pd : ∀ k, ((partStat P D part v sel key k x).map Stat.d).getD 0 =
      ∑ r ∈ (keyRows P sel key x).filter (fun r => part r.1 = k), wdiffD P D r := by
    intro k; unfold partStat; rw [part_rows]
    split
    · rename_i e; rw [card_eq_zero.1 e]; simp
    · rfl
  have pn : ∀ k, ((partStat P D part v sel key k x).map Stat.n).getD 0 =
      ∑ r ∈ (keyRows P sel key x).filter (fun r => part r.1 = k), 1 := by
    intro k; unfold partStat; rw [part_rows]
    split
    · rename_i e; rw [card_eq_zero.1 e]; simp
    · rw [← card_eq_sum_ones]; rfl
  simp only [pw] at hw
  simp only [pd] at hd
  simp only [pn] at hnn
  rw [sum_all_parts _ (fun r : P.Row => part r.1) _ ks hn (fun r _ => hc r)] at hw hd hnn
  rw [← card_eq_sum_ones] at hnn
  congr 1
  cases s
  simp only at hw hd hnn hcl
  unfold statOf at hcl ⊢
  rw [hw, hd, hnn]
  congr 1
  ext g
  exact hcl g

include hn hc in
theorem isSwS_eq (r : P.Row) : isSwS P o h D part ks r = isSwD P o h D r := by
  unfold isSwS isSwD
  rw [distS_eq P o h part ks hn hc]

include hn hc in
theorem statC_eq {r : P.Row} (e : isCtD P o D r = true) : statC P o D part ks v r = some (statOf P D v (ctGroup P o D r)) := by
  have hk : keyRows P (isCtD P o D) (keyOf P) (keyOf P r) = ctGroup P o D r := by
    unfold keyRows ctGroup
    rw [← peers_key]
    ext s
    simp only [mem_filter, mem_univ, true_and]
    tauto
  unfold statC
  rw [globalStat_some P D part ks v hn hc, hk]
  rw [hk]
  exact (card_pos.2 ⟨r, mem_ctGroup_self P o D e⟩).ne'

include hn hc in
theorem statU_eq {r : P.Row} (e : isSwD P o h D r = true ∨ isCtD P o D r = true) :
    statU P o h D part ks v r = some (statOf P D v (unGroup P o h D r)) := by
  have hs : (fun s => isSwS P o h D part ks s || isCtD P o D s) = fun s => isSwD P o h D s || isCtD P o D s := by
    funext s
    rw [isSwS_eq P o h D part ks hn hc]
  have hk : keyRows P (fun s => isSwD P o h D s || isCtD P o D s) (keyOf P) (keyOf P r) = unGroup P o h D r := by
    unfold keyRows unGroup
    rw [← peers_key]
    ext s
    simp only [mem_filter, mem_univ, true_and]
    tauto
  unfold statU
  rw [hs, globalStat_some P D part ks v hn hc, hk]
  rw [hk]
  refine (card_pos.2 ⟨r, ?_⟩).ne'
  unfold unGroup
  simp only [mem_filter, mem_peers_self, true_and, Bool.or_eq_true]
  exact e

include hn hc in
theorem statS_eq (hb : ∀ i j, base (P.cell i) = base (P.cell j) → P.cell i = P.cell j) {r : P.Row}
    (e : isSwD P o h D r = true) :
    statS P o h D part ks v base r = some (statOf P D v (cohort P o h D v r)) := by
  have hs : isSwS P o h D part ks = isSwD P o h D := funext fun s => isSwS_eq P o h D part ks hn hc s
  have hk : keyRows P (isSwD P o h D) (swKey P v base) (swKey P v base r) = cohort P o h D v r := by
    unfold keyRows cohort cohortKey swKey
    ext s
    simp only [mem_filter, mem_univ, true_and, Prod.mk.injEq]
    constructor
    · rintro ⟨h1, h2, h3, h4⟩; exact ⟨⟨hb _ _ h2, h3, h4⟩, h1⟩
    · rintro ⟨⟨h2, h3, h4⟩, h1⟩; exact ⟨h1, by rw [h2], h3, h4⟩
  unfold statS
  rw [hs, globalStat_some P D part ks v hn hc, hk]
  rw [hk]
  exact (card_pos.2 ⟨r, mem_cohort_self P o h D v e⟩).ne'

variable [IsStrictOrderedRing K] (hw : ∀ r : P.Row, 0 ≤ P.w r.1 r.2)

include hw in
theorem meanStat_statOf (A : Finset P.Row) : meanStat (some (statOf P D v A)) = meanOver P D A := by
  unfold meanStat meanOver statOf
  dsimp only
  split
  · rfl
  · rename_i e
    have : ∑ r ∈ A, P.w r.1 r.2 = 0 := le_antisymm (not_lt.1 e) (sum_nonneg fun r _ => hw r)
    rw [this, div_zero]

theorem meanOver_guard (A : Finset P.Row) (hw : ∀ r : P.Row, 0 ≤ P.w r.1 r.2) :
    (if 0 < ∑ s ∈ A, P.w s.1 s.2 then meanOver P D A else 0) = meanOver P D A := by
  split
  · rfl
  · rename_i e
    have : ∑ r ∈ A, P.w r.1 r.2 = 0 := le_antisymm (not_lt.1 e) (sum_nonneg fun r _ => hw r)
    unfold meanOver
    rw [this, div_zero]

variable (pl : Bool) (hcl : v.cluster = none)
  (hb : ∀ i j, base (P.cell i) = base (P.cell j) → P.cell i = P.cell j)

include hcl in
theorem dofStat_statOf (A : Finset P.Row) : dofStat v (some (statOf P D v A)) = A.card := by
  unfold dofStat statOf
  simp [hcl]

include hn hc hcl hb hw in
/-- At a switcher row the centring and the scaling are the single-machine ones. -/
theorem scale_sw (hh : 1 ≤ h) {r : P.Row} (e : isSwD P o h D r = true) :
    eHatS P o h D part ks v base r = eHat P o h D v pl r ∧ dofScaleS P o h D part ks v base r = dofScale P o h D v pl r := by
  have hat := at_of_sw P o h D e
  have hbf := not_before_of_at P h hh hat
  have hS : dofS P o h D v pl r = some (cohort P o h D v r).card := by
    unfold dofS; rw [if_pos e, hcl]
  have hU : dofU P o h D v r = some (unGroup P o h D r).card := by
    unfold dofU; rw [if_pos (by rw [e]; rfl), hcl]
  have h1 := statS_eq P o h D part ks v base hn hc hb e
  have h2 := statU_eq P o h D part ks v hn hc (Or.inl e)
  have hmU : meanU P o h D r = meanOver P D (unGroup P o h D r) := by
    unfold meanU
    simp only [e, Bool.true_or, true_and]
    exact meanOver_guard P D _ hw
  have hmS : meanS P o h D v r = meanOver P D (cohort P o h D v r) := by unfold meanS; rw [if_pos e]
  constructor
  · unfold eHatS eHat
    dsimp only
    rw [h1, h2, dofStat_statOf P D v hcl, dofStat_statOf P D v hcl, hS, hU, meanStat_statOf P D v hw,
      meanStat_statOf P D v hw, hmU, hmS]
    simp only [hat, hbf, Option.getD_some, Bool.true_and, Bool.false_and, Bool.or_false, Bool.false_eq_true, if_false]
    by_cases a : 2 ≤ (cohort P o h D v r).card
    · simp [a]
    · by_cases b : (cohort P o h D v r).card = 1 <;> by_cases c : 2 ≤ (unGroup P o h D r).card <;> simp [a, b, c]
  · unfold dofScaleS dofScale
    dsimp only
    rw [h1, h2, dofStat_statOf P D v hcl, dofStat_statOf P D v hcl, hS, hU]
    simp only [hat, hbf, Option.getD_some, Bool.true_and, Bool.false_and, Bool.or_false, Bool.false_eq_true, if_false,
      Option.map_some]

include hn hc hcl hw in
/-- At a control row the centring and the scaling are the single-machine ones. -/
theorem scale_ct (hh : 1 ≤ h) {r : P.Row} (e : isCtD P o D r = true) :
    eHatS P o h D part ks v base r = eHat P o h D v pl r ∧ dofScaleS P o h D part ks v base r = dofScale P o h D v pl r := by
  have hbf := before_of_ct P o D e
  have hat : atTarget P h r = false := by
    cases ha : atTarget P h r with
    | false => rfl
    | true => rw [not_before_of_at P h hh ha] at hbf; cases hbf
  have hC : dofC P o D v r = some (ctGroup P o D r).card := by
    unfold dofC; rw [if_pos e, hcl]
  have hU : dofU P o h D v r = some (unGroup P o h D r).card := by
    unfold dofU; rw [if_pos (by rw [e, Bool.or_true]), hcl]
  have h1 := statC_eq P o D part ks v hn hc e
  have h2 := statU_eq P o h D part ks v hn hc (Or.inr e)
  have hmU : meanU P o h D r = meanOver P D (unGroup P o h D r) := by
    unfold meanU
    simp only [e, Bool.or_true, true_and]
    exact meanOver_guard P D _ hw
  have hmC : meanC P o D r = meanOver P D (ctGroup P o D r) := by
    unfold meanC
    simp only [e, true_and]
    exact meanOver_guard P D _ hw
  constructor
  · unfold eHatS eHat
    dsimp only
    rw [h1, h2, dofStat_statOf P D v hcl, dofStat_statOf P D v hcl, hC, hU, meanStat_statOf P D v hw,
      meanStat_statOf P D v hw, hmU, hmC]
    simp only [hat, hbf, Option.getD_some, Bool.true_and, Bool.false_and, Bool.false_or, Bool.false_eq_true, if_false]
    by_cases a : 2 ≤ (ctGroup P o D r).card
    · simp [a]
    · by_cases b : (ctGroup P o D r).card = 1 <;> by_cases c : 2 ≤ (unGroup P o h D r).card <;> simp [a, b, c]
  · unfold dofScaleS dofScale
    dsimp only
    rw [h1, h2, dofStat_statOf P D v hcl, dofStat_statOf P D v hcl, hC, hU]
    simp only [hat, hbf, Option.getD_some, Bool.true_and, Bool.false_and, Bool.false_or, Bool.false_eq_true, if_false,
      Option.map_some]

theorem tGS_le (i : ι) : tGS P part i ≤ tG P i := by
  unfold tGS tG
  have : (univ.filter fun j => part j = part i ∧ P.cell j = P.cell i).sup' ⟨i, by simp⟩ (fTrunc P) ≤
      (univ.filter fun j => P.cell j = P.cell i).sup' ⟨i, by simp⟩ (fTrunc P) := by
    apply sup'_mono
    intro j
    simp only [mem_filter, mem_univ, true_and]
    exact fun x => x.2
  omega

theorem window_eq (r : P.Row) (hT : P.time r ≤ tGS P part r.1) : windowS P h part r = window P h r := by
  have := tGS_le P part r.1
  unfold windowS window
  rw [Bool.eq_iff_iff]
  simp only [Bool.and_eq_true, decide_eq_true_iff]
  omega

end

section
variable (P : Frame ι β K) (o : Opt K) (h : ℕ) (pl : Bool) (part : ι → κ) (ks : List κ) (v : VOpt ι γ K) (base : β → δ)
variable (hn : ks.Nodup) (hc : ∀ r : P.Row, part r.1 ∈ ks) [IsStrictOrderedRing K]

/-- The factor between the two influence values. -/
def varFactor (N : K) : K :=
  N / max (∑ r ∈ candidateRows P o pl h, P.w r.1 r.2) o.eps * (max (∑ r ∈ switcherRows P o pl h, P.w r.1 r.2) o.eps / Fintype.card ι)

include hn hc in
theorem infVarS_eq (hw : ∀ r : P.Row, 0 ≤ P.w r.1 r.2) (heps : 0 < o.eps) (hh : 1 ≤ h) (hcl : v.cluster = none)
    (hb : ∀ i j, base (P.cell i) = base (P.cell j) → P.cell i = P.cell j)
    (hT : ∀ r : P.Row, P.diff pl h r ≠ none → P.time r ≤ tGS P part r.1) (N : K) (r : P.Row) :
    infVarS P o h (P.diff pl h) part ks v base N r = varFactor P o h pl N * infVar P o h (P.diff pl h) v pl r := by
  have hm : max (∑ r ∈ switcherRows P o pl h, P.w r.1 r.2) o.eps ≠ 0 := (lt_max_of_lt_right heps).ne'
  have hι : (Fintype.card ι : K) ≠ 0 := by
    have : 0 < Fintype.card ι := Fintype.card_pos_iff.2 ⟨r.1⟩
    exact_mod_cast this.ne'
  unfold infVarS infVar
  rw [weight_scalars P o h pl part ks hn hc, distS_eq P o h part ks hn hc, nControlS_eq P o h _ part ks hn hc,
    nTreatedS_eq P o h _ part ks hn hc]
  show _ * _ * P.w r.1 r.2 * ((dist P o pl h r).getD 0 - _ / (if nControl P o pl h r = 0 then 1 else nControl P o pl h r)
      * (never P o pl h r).getD 0) * _ * _ = _
  rw [mul_assoc (_ * (N / _)) (P.w r.1 r.2), core_eq P o h pl hw r]
  have hsc : scaleGN P o h (P.diff pl h) = (Fintype.card ι : K) / max (∑ r ∈ switcherRows P o pl h, P.w r.1 r.2) o.eps := by
    unfold scaleGN
    rw [← nSwW_eq]; rfl
  cases hx : P.diff pl h r with
  | none =>
    have : contrastD P o h (P.diff pl h) r = none := by unfold contrastD distD; rw [hx]; rfl
    rw [this]
    have h1 : dist P o pl h r = none := by unfold dist; rw [hx]; rfl
    have h2 : never P o pl h r = none := by unfold never; rw [hx]; rfl
    rw [h1, h2]
    simp
  | some x =>
    obtain ⟨a, ha, hav⟩ : ∃ a, contrastD P o h (P.diff pl h) r = some a ∧ a = (dist P o pl h r).getD 0 - nTreated P o pl h r
        / (if nControl P o pl h r = 0 then 1 else nControl P o pl h r) * (never P o pl h r).getD 0 := by
      refine ⟨_, ?_, rfl⟩
      unfold contrastD
      rw [distD_eq, nTreatedD_eq, nControlD_eq, neverD_eq]
      have : dist P o pl h r = some (if isEvent P o pl h r then 1 else 0) := by unfold dist; rw [hx]; rfl
      rw [this]; rfl
    rw [ha, ← hav, window_eq P h part r (hT r (by rw [hx]; simp)), hsc]
    simp only [Option.map_some, Option.getD_some]
    by_cases ha0 : a = 0
    · rw [ha0]; ring
    · have heq : eHatS P o h (P.diff pl h) part ks v base r = eHat P o h (P.diff pl h) v pl r ∧
          dofScaleS P o h (P.diff pl h) part ks v base r = dofScale P o h (P.diff pl h) v pl r := by
        by_cases hs : isSwD P o h (P.diff pl h) r = true
        · exact scale_sw P o h _ part ks v base hn hc hw pl hcl hb hh hs
        · by_cases hct : isCtD P o (P.diff pl h) r = true
          · exact scale_ct P o h _ part ks v base hn hc hw pl hcl hh hct
          · exact absurd (contrast_zero P o h _ ha (by simpa using hs) (Or.inl (by simpa using hct))) ha0
      rw [heq.1, heq.2]
      unfold varFactor
      field_simp

include hn hc in
/-- C186.  Without clusters and without `trends_nonparam`, when every switcher has controls and every row has, in its own
partition, a unit of its baseline that has not yet switched by then (or is still observed), the distributed influence values
are the single-machine ones, rescaled by the number of units the cluster counts; the standard error is the same for every
spread of the units over the partitions. -/
theorem C186_influence (hw : ∀ r : P.Row, 0 ≤ P.w r.1 r.2) (heps : 0 < o.eps) (hh : 1 ≤ h) (hcl : v.cluster = none)
    (hb : ∀ i j, base (P.cell i) = base (P.cell j) → P.cell i = P.cell j)
    (hT : ∀ r : P.Row, P.diff pl h r ≠ none → P.time r ≤ tGS P part r.1)
    (hctl : ∀ r ∈ candidateRows P o pl h, 0 < ∑ s ∈ controls P o pl h r, P.w s.1 s.2) (N : K) (i : ι) :
    unitVarS P o h (P.diff pl h) part ks v base N i = N / Fintype.card ι * unitVar P o h (P.diff pl h) v pl i := by
  have hEq : candidateRows P o pl h = switcherRows P o pl h := by
    ext r
    rw [switcher_candidate]
    exact ⟨fun e => ⟨e, hctl r e⟩, fun e => e.1⟩
  have hm : max (∑ r ∈ switcherRows P o pl h, P.w r.1 r.2) o.eps ≠ 0 := (lt_max_of_lt_right heps).ne'
  unfold unitVarS unitVar
  rw [mul_sum]
  refine sum_congr rfl fun k _ => ?_
  rw [infVarS_eq P o h pl part ks v base hn hc hw heps hh hcl hb hT]
  congr 1
  unfold varFactor
  rw [hEq]
  field_simp

end

section
variable (P : Frame ι β ℝ) (o : Opt ℝ) (h : ℕ) (pl : Bool) (part : ι → κ) (ks : List κ) (v : VOpt ι γ ℝ) (base : β → δ)
variable (hn : ks.Nodup) (hc : ∀ r : P.Row, part r.1 ∈ ks)

include hn hc in
/-- C186.  Under the same conditions the reported standard error is the single-machine one, whatever number of units the cluster
counts. -/
theorem C186_standard_error (hsq : v.sq = Real.sqrt) (hw : ∀ r : P.Row, 0 ≤ P.w r.1 r.2) (heps : 0 < o.eps) (hh : 1 ≤ h)
    (hcl : v.cluster = none) (hb : ∀ i j, base (P.cell i) = base (P.cell j) → P.cell i = P.cell j)
    (hT : ∀ r : P.Row, P.diff pl h r ≠ none → P.time r ≤ tGS P part r.1)
    (hctl : ∀ r ∈ candidateRows P o pl h, 0 < ∑ s ∈ controls P o pl h r, P.w s.1 s.2) (N : ℝ) (hN : 0 < N) :
    plainSES v N (unitVarS P o h (P.diff pl h) part ks v base N) = horizonSE v (unitVar P o h (P.diff pl h) v pl) := by
  unfold plainSES horizonSE plainSE
  rw [hcl, hsq]
  have : ∀ i, unitVarS P o h (P.diff pl h) part ks v base N i = N / Fintype.card ι * unitVar P o h (P.diff pl h) v pl i :=
    fun i => C186_influence P o h pl part ks v base hn hc hw heps hh hcl hb hT hctl N i
  simp only [this, mul_pow, ← mul_sum]
  rw [Real.sqrt_mul (by positivity), Real.sqrt_sq (by positivity)]
  field_simp

include hn hc in
/-- C186 (violated: dilution).  Switchers without controls shrink the standard error by the same factor as the estimate. -/
theorem C186_dilution_violated (hw : ∀ r : P.Row, 0 ≤ P.w r.1 r.2) (heps : 0 < o.eps) (hh : 1 ≤ h) (hcl : v.cluster = none)
    (hb : ∀ i j, base (P.cell i) = base (P.cell j) → P.cell i = P.cell j)
    (hT : ∀ r : P.Row, P.diff pl h r ≠ none → P.time r ≤ tGS P part r.1) (hsq : v.sq = Real.sqrt) (N : ℝ) (hN : 0 < N) :
    plainSES v N (unitVarS P o h (P.diff pl h) part ks v base N) =
      max (∑ r ∈ switcherRows P o pl h, P.w r.1 r.2) o.eps / max (∑ r ∈ candidateRows P o pl h, P.w r.1 r.2) o.eps *
        horizonSE v (unitVar P o h (P.diff pl h) v pl) := by
  unfold plainSES horizonSE plainSE
  rw [hcl, hsq]
  have hu : ∀ i, unitVarS P o h (P.diff pl h) part ks v base N i =
      varFactor P o h pl N * unitVar P o h (P.diff pl h) v pl i := by
    intro i
    unfold unitVarS unitVar
    rw [mul_sum]
    exact sum_congr rfl fun k _ => infVarS_eq P o h pl part ks v base hn hc hw heps hh hcl hb hT N _
  have h1 : 0 < max (∑ r ∈ switcherRows P o pl h, P.w r.1 r.2) o.eps := lt_max_of_lt_right heps
  have h2 : 0 < max (∑ r ∈ candidateRows P o pl h, P.w r.1 r.2) o.eps := lt_max_of_lt_right heps
  simp only [hu, mul_pow, ← mul_sum]
  have hv : 0 ≤ varFactor P o h pl N := by unfold varFactor; positivity
  rw [Real.sqrt_mul (by positivity), Real.sqrt_sq hv]
  unfold varFactor
  field_simp

end

example : (∀ r : exB.frame.Row, exB.frame.diff false 1 r ≠ none → exB.frame.time r ≤ tGS exB.frame (fun i => i.1 % 2) r.1) ∧
    (∀ i j, (id : ℕ → ℕ) (exB.frame.cell i) = id (exB.frame.cell j) → exB.frame.cell i = exB.frame.cell j) ∧
    horizonSE exV (unitVar exB.frame (exB.opt (1 / 10)) 1 (exB.frame.diff false 1) exV false) = 5933 / 216 ∧
    plainSES exV 4 (unitVarS exB.frame (exB.opt (1 / 10)) 1 (exB.frame.diff false 1) (fun i => i.1 % 2) [1, 0] exV
      (id : ℕ → ℕ) 4) = 5933 / 216 := by decide +kernel

/-! ## C187: cohorts and clusters -/

section
variable (P : Frame ι β K) (o : Opt K) (h : ℕ) (D : P.Row → Option K) (part : ι → κ) (ks : List κ) (v : VOpt ι γ K)
  (base : β → δ) (hn : ks.Nodup) (hc : ∀ r : P.Row, part r.1 ∈ ks)

include hn hc in
/-- C187.  With a cluster variable the distributed code centres and scales a control by the number of DIFFERENT clusters among the
control rows of its period and baseline, as documented. -/
theorem C187_control_clusters (c : ι → Option γ) (hcl : v.cluster = some c) (r : P.Row) (e : isCtD P o D r = true) :
    dofStat v (statC P o D part ks v r) = ((ctGroup P o D r).image fun s => c s.1).card := by
  rw [statC_eq P o D part ks v hn hc e]
  unfold dofStat statOf
  simp [hcl]

include hn hc in
/-- C187.  With a cluster variable and no `trends_nonparam`, a switcher is scaled by the number of different clusters in its
cohort. -/
theorem C187_switcher_clusters (c : ι → Option γ) (hcl : v.cluster = some c)
    (hb : ∀ i j, base (P.cell i) = base (P.cell j) → P.cell i = P.cell j) (r : P.Row) (e : isSwD P o h D r = true) :
    dofStat v (statS P o h D part ks v base r) = ((cohort P o h D v r).image fun s => c s.1).card := by
  rw [statS_eq P o h D part ks v base hn hc hb e]
  unfold dofStat statOf
  simp [hcl]

/-- C187 (violated against the single-machine code).  The single-machine count of a control's clusters has one more as soon as a row
of the period and baseline is not a control (null counts as a cluster there). -/
theorem C187_local_count_violated (c : ι → Option γ) (hcl : v.cluster = some c) (hk : ∀ i, (c i).isSome = true)
    (hn : ks.Nodup) (hc : ∀ r : P.Row, part r.1 ∈ ks) (r s : P.Row) (e : isCtD P o D r = true) (hs : s ∈ peers P r)
    (hns : isCtD P o D s = false) :
    dofC P o D v r = some (dofStat v (statC P o D part ks v r) + 1) := by
  rw [C187_control_clusters P o D part ks v hn hc c hcl r e]
  unfold dofC
  rw [if_pos e, hcl]
  simp only [hk r.1, if_true, Option.some.injEq]
  unfold nUnique
  have : (peers P r).image (fun s => if isCtD P o D s = true then c s.1 else none) =
      insert none ((ctGroup P o D r).image fun s => c s.1) := by
    ext g
    unfold ctGroup
    simp only [mem_image, mem_insert, mem_filter]
    constructor
    · rintro ⟨x, hx, hg⟩
      by_cases hcx : isCtD P o D x = true
      · rw [if_pos hcx] at hg
        exact Or.inr ⟨x, ⟨hx, hcx⟩, hg⟩
      · rw [if_neg hcx] at hg
        exact Or.inl hg.symm
    · rintro (hg | ⟨x, ⟨hx, hcx⟩, hg⟩)
      · exact ⟨s, hs, by rw [if_neg (by rw [hns]; simp), hg]⟩
      · exact ⟨x, hx, by rw [if_pos hcx, hg]⟩
  rw [this, card_insert_of_notMem]
  intro hmem
  obtain ⟨x, _, hx⟩ := mem_image.1 hmem
  have := hk x.1
  rw [hx] at this
  cases this

end

example : ∃ r s : exB.frame.Row, isCtD exB.frame (exB.opt (1 / 10)) (exB.frame.diff false 1) r = true ∧ s ∈ peers exB.frame r ∧
    isCtD exB.frame (exB.opt (1 / 10)) (exB.frame.diff false 1) s = false := by decide +kernel

/-- Four units over periods 1..3 with one baseline and two trend cells: units 0 and 1 switch at 3 in cells 0 and 1, units 2 and 3
never switch. -/
def exTrend : Balanced (Fin 4) ℕ ℚ where
  t0 := 1
  T := 3
  Y := fun i t => if i = 0 then t * t else if i = 1 then 4 * t else if i = 2 then t else 2 * t * t
  F := ![((3 : ℤ) : WithTop ℤ), ((3 : ℤ) : WithTop ℤ), ⊤, ⊤]
  cell := ![0, 1, 0, 1]
  S := ![1, 1, 0, 0]
  D := fun i t => if i.1 ≤ 1 ∧ 3 ≤ t then 1 else 0
  dsq := fun _ => 0
  hF := by decide +kernel

/-- C187 (violated: `trends_nonparam`).  The distributed cohorts ignore the trend cells: the two switchers, alone in their cells, form one
cohort of two, and the sum of squared influence values differs from the single-machine one (which centres each at the mean of
its cell). -/
theorem C187_trends_violated :
    estimateS exTrend.frame (exTrend.opt (1 / 10)) 1 (exTrend.frame.diff false 1) (fun i => i.1 % 2) [1, 0] 4 =
      estimate exTrend.frame (exTrend.opt (1 / 10)) false 1 ∧
    horizonSE exV (unitVar exTrend.frame (exTrend.opt (1 / 10)) 1 (exTrend.frame.diff false 1) exV false) ≠
    plainSES exV 4 (unitVarS exTrend.frame (exTrend.opt (1 / 10)) 1 (exTrend.frame.diff false 1) (fun i => i.1 % 2) [1, 0] exV
      (fun _ => (0 : ℕ)) 4) := by decide +kernel

/-! ## C188: the covariance matrix counts the dropped units -/

/-- Entry of `np.cov(...) / n_groups`, `_didinter_mp.py:695-697`: the matrix has one row per unit of `sorted_gnames`, `N` of them, those
dropped by the filters holding 0. -/
def vcovS (N : ℕ) (ψ φ : ι → K) : K :=
  ((∑ i, (ψ i - (∑ j, ψ j) / N) * (φ i - (∑ j, φ j) / N)) + ((N : K) - Fintype.card ι) * ((∑ j, ψ j) / N) * ((∑ j, φ j) / N))
    / ((N : K) - 1) / N

/-- C188.  In terms of the influence values per unit share, the covariance entry depends on the number of counted units. -/
theorem C188_vcov [CharZero K] (N : ℕ) (hN : 2 ≤ N) (a b : ι → K) :
    vcovS N (fun i => (N : K) * a i) (fun i => (N : K) * b i) =
      ((N : K) * ∑ i, a i * b i - (∑ i, a i) * ∑ i, b i) / ((N : K) - 1) := by
  have h0 : (N : K) ≠ 0 := by exact_mod_cast (by omega : N ≠ 0)
  have h1 : (N : K) - 1 ≠ 0 := by
    rw [sub_ne_zero]
    exact_mod_cast (by omega : N ≠ 1)
  unfold vcovS
  have e1 : ∑ j, (N : K) * a j = N * ∑ j, a j := (mul_sum ..).symm
  have e2 : ∑ j, (N : K) * b j = N * ∑ j, b j := (mul_sum ..).symm
  rw [e1, e2, mul_div_cancel_left₀ _ h0, mul_div_cancel_left₀ _ h0]
  have e3 : ∑ i, ((N : K) * a i - ∑ j, a j) * ((N : K) * b i - ∑ j, b j) =
      (N : K) ^ 2 * (∑ i, a i * b i) - 2 * N * (∑ j, a j) * (∑ j, b j) + Fintype.card ι * ((∑ j, a j) * ∑ j, b j) := by
    have : ∀ i, ((N : K) * a i - ∑ j, a j) * ((N : K) * b i - ∑ j, b j) =
        (N : K) ^ 2 * (a i * b i) - N * (∑ j, b j) * a i - N * (∑ j, a j) * b i + (∑ j, a j) * ∑ j, b j := by
      intro i; ring
    simp only [this, sum_add_distrib, sum_sub_distrib, ← mul_sum, sum_const, card_univ, nsmul_eq_mul]
    ring
  rw [e3]
  field_simp
  ring

/-- C188.  With as many counted units as units that reach the estimation, the covariance matrix is the single-machine one. -/
theorem C188_equal (ψ φ : ι → K) : vcovS (Fintype.card ι) ψ φ = vcovEntry ψ φ := by
  unfold vcovS vcovEntry
  rw [sub_self, zero_mul, zero_mul, add_zero]

/-- C188 (violated).  The distributed code counts the units before the baseline filters; the variance entry then differs from the
single-machine one although the standard error does not. -/
theorem C188_dropped_units_violated :
    vcovS 4 (fun i : Fin 2 => 4 * (![1, -1] : Fin 2 → ℚ) i) (fun i => 4 * (![1, -1] : Fin 2 → ℚ) i) ≠
    vcovEntry (fun i : Fin 2 => 2 * (![1, -1] : Fin 2 → ℚ) i) (fun i => 2 * (![1, -1] : Fin 2 → ℚ) i) := by decide +kernel

end Verif.Inter
