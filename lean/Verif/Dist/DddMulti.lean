import Verif.Dist.DddDriver
import Verif.Triple.Cells
import Mathlib.Algebra.BigOperators.Field
import Mathlib.Algebra.BigOperators.Ring.Finset
import Mathlib.Tactic.FieldSimp
import Mathlib.Tactic.LinearCombination

/-!
# C183: combining several comparison cohorts, distributed panel path

Model of `streaming_cell_multi_control`, `dask/_ddd_streaming.py:351-481`, `spark/_ddd_streaming.py:345-470`.
-/

set_option linter.unusedSectionVars false
set_option linter.unusedSimpArgs false

namespace Verif.Dist.DddDriver

open Verif Verif.Triple

variable {K : Type*} [Field K]

/-! ## Model -/

/-- `post_dask.merge(pre_dask, on=id_col, how="inner")`, `dask/_ddd_streaming.py:361-365`: every post row with every pre row of the same
unit; the cohort is the one of the post row. -/
def mergedOf (t pret : ℤ) (rows : List (Row K)) : List (Row K × Row K) :=
  (rows.filter fun a => decide (a.time = t)).flatMap fun a =>
    (rows.filter fun b => decide (b.time = pret) && decide (b.id = a.id)).map fun b => (a, b)

/-- `cell_ids`, `dask/_ddd_streaming.py:373`. -/
def sortedIds (m : List (Row K × Row K)) : List ℕ := ((m.map fun p => p.1.id).dedup).insertionSort (· ≤ ·)

/-- `_filter_partition_for_ctrl` over all partitions, `_ddd_partition.py:148-174`. -/
def forCtrl (g c : ℤ) (m : List (Row K × Row K)) : List (Row K × Row K) :=
  m.filter fun p => decide (p.1.g = some g) || decide (p.1.g = some c)

/-- `inf_full[searchsorted(cell_ids, ids)] = scale * if`, `dask/_ddd_streaming.py:449-461`: `l` are the pairs of unit and influence value
returned by the partitions. -/
def spread (nCell nSub : ℕ) (l : List (ℕ × K)) (u : ℕ) : K :=
  match l.lookup u with
  | none => 0
  | some v => ((nCell : K) / (nSub : K)) * v

/-- `streaming_cell_multi_control`, `dask/_ddd_streaming.py:369-481`: estimate, influence values by unit, squared standard error.  `estD` is the
estimation of one comparison from its rows (C178). -/
def distMulti (inv : ∀ m, (Fin m → Fin m → K) → Fin m → Fin m → K) (estD : List (Row K × Row K) → Option (K × List (ℕ × K))) (g : ℤ)
    (controls : List ℤ) (merged : List (Row K × Row K)) (nUnits : ℕ) : Option (K × (List ℕ × List K) × K) :=
  let res := controls.filterMap fun c => (estD (forCtrl g c merged)).map fun r => (r.1, r.2, (forCtrl g c merged).length)
  if res.isEmpty then none
  else
    let cellIds := sortedIds merged
    let out := gmm (inv res.length) (fun a : Fin res.length => res[a].1)
      (fun (i : Fin cellIds.length) (a : Fin res.length) => spread merged.length res[a].2.2 res[a].2.1 cellIds[i]) nUnits
    some (out.1, (cellIds, (List.finRange cellIds.length).map fun i =>
      ((nUnits : K) / (merged.length : K)) * out.2.1 i), out.2.2)

/-! ## C183 -/

/-- Spec: the cohort of a unit is the same in all its rows. -/
def OneCohort (rows : List (Row K)) : Prop := ∀ a ∈ rows, ∀ b ∈ rows, a.id = b.id → a.g = b.g

/-- Spec: the distributed and the single-machine estimation of one comparison agree (C178): both fail, or they give the same estimate and
the same influence value for each unit. -/
def SameCell (one : Option (K × List K × List ℕ)) (dist : Option (K × List (ℕ × K))) : Prop :=
  match one, dist with
  | none, none => True
  | some (a, f, ids), some (b, l) => a = b ∧ f.length = ids.length ∧ l.Perm (ids.zip f)
  | _, _ => False

lemma mem_mergedOf (t pret : ℤ) (rows : List (Row K)) (p : Row K × Row K) :
    p ∈ mergedOf t pret rows ↔ p.1 ∈ rows ∧ p.1.time = t ∧ p.2 ∈ rows ∧ p.2.time = pret ∧ p.2.id = p.1.id := by
  unfold mergedOf
  simp only [List.mem_flatMap, List.mem_map, List.mem_filter, decide_eq_true_eq, Bool.and_eq_true]
  constructor
  · rintro ⟨a, ⟨ha, hat⟩, b, ⟨hb, hbt, hid⟩, rfl⟩
    exact ⟨ha, hat, hb, hbt, hid⟩
  · rintro ⟨ha, hat, hb, hbt, hid⟩
    exact ⟨p.1, ⟨ha, hat⟩, p.2, ⟨hb, hbt, hid⟩, rfl⟩

lemma OneRow.filter' {rows : List (Row K)} (h : OneRow rows) (q : Row K → Bool) : OneRow (rows.filter q) :=
  List.Pairwise.filter q h

lemma length_le_one {α : Type*} (l : List α) (h : l.Pairwise fun _ _ => False) : l.length ≤ 1 := by
  match l, h with
  | [], _ => simp
  | [_], _ => simp
  | a :: b :: l, h => exact ((List.pairwise_cons.1 h).1 b List.mem_cons_self).elim

lemma merged_ids_nodup (t pret : ℤ) (rows : List (Row K)) (h : OneRow rows) : ((mergedOf t pret rows).map fun p => p.1.id).Nodup := by
  have single : ∀ (u : ℕ) (s : ℤ), (rows.filter fun b => decide (b.time = s) && decide (b.id = u)).length ≤ 1 := by
    intro u s
    have h0 : (rows.filter fun b => decide (b.time = s) && decide (b.id = u)).Pairwise fun _ _ => False := by
      refine (List.Pairwise.filter _ h).imp_of_mem fun {a b} ha hb hab => hab ?_
      have ha := (List.mem_filter.1 ha).2
      have hb := (List.mem_filter.1 hb).2
      simp only [Bool.and_eq_true, decide_eq_true_eq] at ha hb
      exact ⟨ha.2.trans hb.2.symm, ha.1.trans hb.1.symm⟩
    exact length_le_one _ h0
  have hpost : ((rows.filter fun a => decide (a.time = t)).map Row.id).Nodup := by
    rw [List.Nodup, List.pairwise_map]
    refine (List.Pairwise.filter _ h).imp_of_mem fun {a b} ha hb hab hid => hab ⟨hid, ?_⟩
    have ha := (List.mem_filter.1 ha).2
    have hb := (List.mem_filter.1 hb).2
    simp only [decide_eq_true_eq] at ha hb
    exact ha.trans hb.symm
  unfold mergedOf
  rw [List.map_flatMap]
  have hsub : ∀ l : List (Row K), ((l.flatMap fun a => ((rows.filter fun b => decide (b.time = pret) && decide (b.id = a.id)).map
      fun b => (a, b)).map fun p => p.1.id).Sublist (l.map Row.id)) := by
    intro l
    induction l with
    | nil => simp
    | cons a l ih =>
      rw [List.flatMap_cons, List.map_cons]
      have h1 := single a.id pret
      rw [List.map_map]
      generalize (rows.filter fun b => decide (b.time = pret) && decide (b.id = a.id)) = q at h1
      match q, h1 with
      | [], _ => exact ih.cons a.id
      | [b], _ => exact ih.cons_cons a.id
      | b :: c :: r, h1 => simp at h1
  exact (hsub _).nodup hpost

lemma lookup_perm {l m : List (ℕ × K)} (h : l.Perm m) (hn : (l.map Prod.fst).Nodup) (u : ℕ) : l.lookup u = m.lookup u := by
  induction h with
  | nil => rfl
  | cons x _ ih =>
    rw [List.map_cons, List.nodup_cons] at hn
    rw [List.lookup_cons, List.lookup_cons, ih hn.2]
  | swap x y l =>
    simp only [List.map_cons, List.nodup_cons, List.mem_cons, not_or] at hn
    obtain ⟨x1, x2⟩ := x
    obtain ⟨y1, y2⟩ := y
    simp only at hn
    simp only [List.lookup_cons]
    by_cases hx : u = x1
    · have hy : u ≠ y1 := fun hy => hn.1.1 (hy.symm.trans hx)
      rw [beq_eq_false_iff_ne.2 hy, beq_iff_eq.2 hx]
    · rw [beq_eq_false_iff_ne.2 hx]
  | trans h1 _ ih1 ih2 => exact (ih1 hn).trans (ih2 ((h1.map Prod.fst).nodup_iff.1 hn))

lemma lookup_zip (ids : List ℕ) (f : List K) (hf : f.length = ids.length) (u : ℕ) :
    (ids.zip f).lookup u = (ids.idxOf? u).map fun k => (f[k]?).getD 0 := by
  induction ids generalizing f with
  | nil => simp
  | cons a ids ih =>
    cases f with
    | nil => simp at hf
    | cons v f =>
      rw [List.zip_cons_cons, List.lookup_cons, List.idxOf?_cons]
      by_cases h : u = a
      · subst h; simp
      · have h1 : (u == a) = false := beq_eq_false_iff_ne.2 h
        have h2 : (a == u) = false := beq_eq_false_iff_ne.2 (Ne.symm h)
        rw [h1, h2, ih f (by simpa using hf)]
        simp [Function.comp_def]

/-- The units of one comparison are the same on both sides. -/
lemma sub_ids (t pret g c : ℤ) (cell : List (Row K)) (h1 : OneRow cell) (h2 : OneCohort cell) (merged : List (Row K × Row K))
    (hm : merged.Perm (mergedOf t pret cell)) :
    ((pairs t pret (cell.filter fun r => decide (r.g = some g) || decide (r.g = some c))).map fun p => p.1.id).Perm
      ((forCtrl g c merged).map fun p => p.1.id) := by
  obtain ⟨k1, k2, k3⟩ := C53_pairs t pret _ (OneRow.filter' h1 fun r => decide (r.g = some g) || decide (r.g = some c))
  have k4 : ((forCtrl g c merged).map fun p => p.1.id).Nodup :=
    (((hm.map _).nodup_iff).2 (merged_ids_nodup t pret cell h1)).sublist (List.Sublist.map _ List.filter_sublist)
  rw [List.perm_ext_iff_of_nodup k3 k4]
  intro u
  simp only [List.mem_map, forCtrl, List.mem_filter]
  constructor
  · rintro ⟨p, hp, rfl⟩
    obtain ⟨hid, ha, hat, hb, hbt⟩ := k1 p hp
    rw [List.mem_filter] at ha hb
    exact ⟨p, ⟨hm.mem_iff.2 ((mem_mergedOf _ _ _ _).2 ⟨ha.1, hat, hb.1, hbt, hid.symm⟩), ha.2⟩, rfl⟩
  · rintro ⟨p, ⟨hp, hq⟩, rfl⟩
    obtain ⟨ha, hat, hb, hbt, hid⟩ := (mem_mergedOf _ _ _ _).1 (hm.mem_iff.1 hp)
    have hg := h2 _ hb _ ha hid
    obtain ⟨q, hq1, hq2⟩ := k2 p.1 (List.mem_filter.2 ⟨ha, hq⟩) p.2 (List.mem_filter.2 ⟨hb, by rw [hg]; exact hq⟩) hid.symm hat hbt
    exact ⟨q, hq1, by rw [hq2]⟩

/-- The combination, as a function of the columns. -/
def combine (inv : ∀ m, (Fin m → Fin m → K) → Fin m → Fin m → K) (cellIds : List ℕ) (m : ℕ) (att : Fin m → K) (X : ℕ → Fin m → K)
    (nCell nUnits : ℕ) : Option (K × (List ℕ × List K) × K) :=
  let out := gmm (inv m) att (fun (i : Fin cellIds.length) a => X cellIds[i] a) nUnits
  some (out.1, (cellIds, (List.finRange cellIds.length).map fun i => ((nUnits : K) / (nCell : K)) * out.2.1 i), out.2.2)

lemma combine_congr (inv : ∀ m, (Fin m → Fin m → K) → Fin m → Fin m → K) (c c' : List ℕ) (m m' : ℕ) (att : Fin m → K) (att' : Fin m' → K)
    (X : ℕ → Fin m → K) (X' : ℕ → Fin m' → K) (n n' nU : ℕ) (hc : c = c') (hm : m = m') (ha : ∀ a, att a = att' (Fin.cast hm a))
    (hX : ∀ u a, X u a = X' u (Fin.cast hm a)) (hn : n = n') : combine inv c m att X n nU = combine inv c' m' att' X' n' nU := by
  subst hc hm hn
  have e1 : att = att' := funext ha
  have e2 : X = X' := by funext u a; exact hX u a
  rw [e1, e2]

lemma sortedIds_perm {l m : List ℕ} (h : ∀ u, u ∈ l ↔ u ∈ m) : l.dedup.insertionSort (· ≤ ·) = m.dedup.insertionSort (· ≤ ·) := by
  refine List.Perm.eq_of_pairwise (le := (· ≤ ·)) (fun a b _ _ hab hba => le_antisymm hab hba) (List.pairwise_insertionSort _ _)
    (List.pairwise_insertionSort _ _) ?_
  refine (List.perm_insertionSort _ _).trans (((List.perm_ext_iff_of_nodup (List.nodup_dedup _) (List.nodup_dedup _)).2 ?_).trans
    (List.perm_insertionSort _ _).symm)
  intro u
  rw [List.mem_dedup, List.mem_dedup, h]

/-- Body of `multiControls` after the comparisons are estimated (proof device). -/
def bodyL (inv : ∀ m, (Fin m → Fin m → K) → Fin m → Fin m → K) (nUnits : ℕ) (res : List (K × List K × List ℕ)) :
    Option (K × (List ℕ × List K) × K) :=
  if res.isEmpty then none
  else combine inv (((res.flatMap fun r => r.2.2).dedup).insertionSort (· ≤ ·)) res.length (fun a => res[a].1)
    (fun u a => match res[a].2.2.idxOf? u with
      | none => 0
      | some k => (((((res.flatMap fun r => r.2.2).dedup).insertionSort (· ≤ ·)).length : K) / (res[a].2.2.length : K)) * (res[a].2.1[k]?).getD 0)
    (((res.flatMap fun r => r.2.2).dedup).insertionSort (· ≤ ·)).length nUnits

/-- Body of `distMulti` (proof device). -/
def bodyD (inv : ∀ m, (Fin m → Fin m → K) → Fin m → Fin m → K) (merged : List (Row K × Row K)) (nUnits : ℕ) (res : List (K × List (ℕ × K) × ℕ)) :
    Option (K × (List ℕ × List K) × K) :=
  if res.isEmpty then none
  else combine inv (sortedIds merged) res.length (fun a => res[a].1) (fun u a => spread merged.length res[a].2.2 res[a].2.1 u)
    merged.length nUnits

/-- C183: in a panel with one row per unit and period and constant cohorts, whatever the order and partitioning of the merged rows, if every
comparison is estimated as on a single machine (C178) and every unit of the cell belongs to the cohort or to a comparison that could be
estimated, the distributed combination of the comparison cohorts is the single-machine one: same estimate, influence values and standard
error. -/
theorem C183_multi (inv : ∀ m, (Fin m → Fin m → K) → Fin m → Fin m → K) (est : Estimator K)
    (estD : List (Row K × Row K) → Option (K × List (ℕ × K))) (g t pret : ℤ) (controls : List ℤ) (cell : List (Row K))
    (merged : List (Row K × Row K)) (nUnits : ℕ) (h1 : OneRow cell) (h2 : OneCohort cell) (hm : merged.Perm (mergedOf t pret cell))
    (hsame : ∀ c ∈ controls, SameCell (singleDDD est g t pret (cell.filter fun r => decide (r.g = some g) || decide (r.g = some c)))
      (estD (forCtrl g c merged)))
    (hcover : ∀ p ∈ merged, ∃ c ∈ controls, (p.1.g = some g ∨ p.1.g = some c) ∧ (estD (forCtrl g c merged)).isSome) :
    distMulti inv estD g controls merged nUnits = multiControls inv est g t pret (controls.map some) cell nUnits := by
  obtain ⟨resL, hL⟩ : ∃ l, l = (controls.map some).filterMap fun c =>
    singleDDD est g t pret (cell.filter fun r => decide (r.g = some g) || decide (r.g = c)) := ⟨_, rfl⟩
  obtain ⟨resD, hD⟩ : ∃ l, l = controls.filterMap fun c =>
    (estD (forCtrl g c merged)).map fun r => (r.1, r.2, (forCtrl g c merged).length) := ⟨_, rfl⟩
  have mnd : (merged.map fun p => p.1.id).Nodup := ((hm.map _).nodup_iff).2 (merged_ids_nodup t pret cell h1)
  have hlen : merged.length = (sortedIds merged).length := by
    unfold sortedIds
    rw [List.length_insertionSort, List.dedup_eq_self.2 mnd, List.length_map]
  have hR : List.Forall₂ (fun (x : K × List K × List ℕ) (y : K × List (ℕ × K) × ℕ) =>
      x.1 = y.1 ∧ y.2.2 = x.2.2.length ∧ (∀ u, y.2.1.lookup u = (x.2.2.idxOf? u).map fun k => (x.2.1[k]?).getD 0)) resL resD := by
    rw [hL, hD]
    clear hL hD hcover
    induction controls with
    | nil => exact List.Forall₂.nil
    | cons c l ih =>
      have ih := ih fun c hc => hsame c (List.mem_cons_of_mem _ hc)
      have hc := hsame c List.mem_cons_self
      rw [List.map_cons, List.filterMap_cons, List.filterMap_cons]
      cases e1 : singleDDD est g t pret (cell.filter fun r => decide (r.g = some g) || decide (r.g = some c)) with
      | none =>
        cases e2 : estD (forCtrl g c merged) with
        | none => simpa using ih
        | some y => rw [e1, e2] at hc; exact hc.elim
      | some x =>
        cases e2 : estD (forCtrl g c merged) with
        | none => rw [e1, e2] at hc; exact hc.elim
        | some y =>
          rw [e1, e2] at hc
          obtain ⟨ha, hf, hp⟩ := hc
          have hids := singleDDD_ids _ _ _ _ _ _ e1
          have hperm := sub_ids t pret g c cell h1 h2 merged hm
          have hnd : x.2.2.Nodup := by
            rw [hids]
            exact (C53_pairs t pret _ (OneRow.filter' h1 _)).2.2
          refine List.Forall₂.cons ⟨ha, ?_, fun u => ?_⟩ ih
          · show (forCtrl g c merged).length = x.2.2.length
            rw [hids, hperm.length_eq, List.length_map]
          · show y.2.lookup u = _
            rw [← lookup_zip _ _ hf, lookup_perm hp]
            rw [(hp.map Prod.fst).nodup_iff, List.map_fst_zip (by rw [hf])]
            exact hnd
  have eL : multiControls inv est g t pret (controls.map some) cell nUnits = bodyL inv nUnits resL := by rw [hL]; rfl
  have eD : distMulti inv estD g controls merged nUnits = bodyD inv merged nUnits resD := by rw [hD]; rfl
  rw [eL, eD]
  have hlr := hR.length_eq
  by_cases he : resL = []
  · have hd : resD = [] := List.length_eq_zero_iff.1 (by rw [← hlr, he]; rfl)
    rw [he, hd]
    rfl
  have hd : resD ≠ [] := fun h => he (List.length_eq_zero_iff.1 (by rw [hlr, h]; rfl))
  unfold bodyL bodyD
  rw [if_neg (by simpa using hd), if_neg (by simpa using he)]
  have hids : sortedIds merged = ((resL.flatMap fun r => r.2.2).dedup).insertionSort (· ≤ ·) := by
    unfold sortedIds
    apply sortedIds_perm
    intro u
    have hmemL : u ∈ (resL.flatMap fun r => r.2.2) ↔ ∃ c ∈ controls, (estD (forCtrl g c merged)).isSome ∧
        u ∈ (forCtrl g c merged).map fun p => p.1.id := by
      rw [hL]
      simp only [List.mem_flatMap, List.mem_filterMap, List.mem_map]
      constructor
      · rintro ⟨x, ⟨_, ⟨c, hc, rfl⟩, hx⟩, hu⟩
        refine ⟨c, hc, ?_, ?_⟩
        · have := hsame c hc
          cases e2 : estD (forCtrl g c merged) with
          | none => rw [hx, e2] at this; exact this.elim
          | some y => rfl
        · rw [singleDDD_ids _ _ _ _ _ _ hx] at hu
          exact List.mem_map.1 ((sub_ids t pret g c cell h1 h2 merged hm).mem_iff.1 hu)
      · rintro ⟨c, hc, hs, hu⟩
        have := hsame c hc
        cases e1 : singleDDD est g t pret (cell.filter fun r => decide (r.g = some g) || decide (r.g = some c)) with
        | none =>
          obtain ⟨y, hy⟩ := Option.isSome_iff_exists.1 hs
          rw [e1, hy] at this
          exact this.elim
        | some x =>
          refine ⟨x, ⟨_, ⟨c, hc, rfl⟩, e1⟩, ?_⟩
          rw [singleDDD_ids _ _ _ _ _ _ e1]
          exact (sub_ids t pret g c cell h1 h2 merged hm).mem_iff.2 (List.mem_map.2 hu)
    rw [hmemL]
    constructor
    · intro hu
      obtain ⟨p, hp, rfl⟩ := List.mem_map.1 hu
      obtain ⟨c, hc, hg, hs⟩ := hcover p hp
      exact ⟨c, hc, hs, List.mem_map.2 ⟨p, List.mem_filter.2 ⟨hp, by simpa using hg⟩, rfl⟩⟩
    · rintro ⟨c, _, _, hu⟩
      obtain ⟨p, hp, rfl⟩ := List.mem_map.1 hu
      exact List.mem_map.2 ⟨p, (List.mem_filter.1 hp).1, rfl⟩
  refine combine_congr inv _ _ _ _ _ _ _ _ _ _ nUnits hids hlr.symm ?_ ?_ (by rw [hlen, hids])
  · intro a
    have := (List.forall₂_iff_get.1 hR).2 a.1 (by rw [hlr]; exact a.2) a.2
    exact this.1.symm
  · intro u a
    have := (List.forall₂_iff_get.1 hR).2 a.1 (by rw [hlr]; exact a.2) a.2
    unfold spread
    have e2 : resD[a].2.2 = (resL[Fin.cast hlr.symm a].2.2).length := this.2.1
    have e3 : resD[a].2.1.lookup u = (resL[Fin.cast hlr.symm a].2.2.idxOf? u).map fun k => (resL[Fin.cast hlr.symm a].2.1[k]?).getD 0 := this.2.2 u
    rw [e3, e2, hlen, ← hids]
    cases resL[Fin.cast hlr.symm a].2.2.idxOf? u <;> rfl

/-- Rows of two units of cohort 3 and one unit of each of the controls 0 and 5. -/
def mRows : List (Row ℚ) :=
  [⟨1, 3, some 3, true, 4⟩, ⟨1, 2, some 3, true, 1⟩, ⟨2, 3, some 0, true, 2⟩, ⟨2, 2, some 0, true, 2⟩, ⟨3, 3, some 5, false, 7⟩, ⟨3, 2, some 5, false, 2⟩]

/-- Hypotheses are met on these rows, in a different order on the distributed side; the estimator returns the number of units and one value
per unit. -/
example (inv : ∀ m, (Fin m → Fin m → ℚ) → Fin m → Fin m → ℚ) :
    distMulti inv (fun m => some ((m.length : ℚ), m.map fun p => (p.1.id, p.1.y))) 3 [0, 5] (mergedOf 3 2 mRows).reverse 9 =
      multiControls inv (fun ps => some ((ps.length : ℚ), ps.map fun p => p.1.y)) 3 3 2 ([0, 5].map some) mRows 9 := by
  refine C183_multi inv _ _ 3 3 2 [0, 5] mRows _ 9 ?_ ?_ (List.reverse_perm _) ?_ ?_
  · unfold OneRow mRows; decide
  · unfold OneCohort mRows; decide +kernel
  · intro c hc
    simp only [List.mem_cons, List.not_mem_nil, or_false] at hc
    rcases hc with rfl | rfl
    · refine ⟨rfl, rfl, ?_⟩
      decide +kernel
    · refine ⟨rfl, rfl, ?_⟩
      decide +kernel
  · unfold mRows; decide +kernel

/-! ### Units of the cell that belong to no comparison -/

section Extra
variable {F : Type*} [Field F] [LinearOrder F] [IsStrictOrderedRing F] {m : ℕ}

lemma sum_fin_list (C : List ℕ) (hC : C.Nodup) (φ : ℕ → F) : ∑ i : Fin C.length, φ C[i] = ∑ u ∈ C.toFinset, φ u := by
  rw [List.sum_toFinset _ hC]
  simp only [Fin.getElem_fin]
  exact Fin.sum_univ_fun_getElem C φ

lemma sum_over_cell (C D : List ℕ) (hC : C.Nodup) (hD : D.Nodup) (φ : ℕ → F) (hsub : ∀ u ∈ D, u ∈ C) (h0 : ∀ u ∈ C, u ∉ D → φ u = 0) :
    ∑ i : Fin C.length, φ C[i] = ∑ i : Fin D.length, φ D[i] := by
  rw [sum_fin_list C hC, sum_fin_list D hD]
  refine (Finset.sum_subset (fun u hu => ?_) fun u hu hn => h0 u (List.mem_toFinset.1 hu) fun h => hn (List.mem_toFinset.2 h)).symm
  exact List.mem_toFinset.2 (hsub u (List.mem_toFinset.1 hu))

/-- Value of unit `u` in comparison `a`, zero outside. -/
def valueAt (l : List (ℕ × F)) (u : ℕ) : F := (l.lookup u).getD 0

lemma spread_eq (N n : ℕ) (l : List (ℕ × F)) (u : ℕ) : spread N n l u = (N : F) / (n : F) * valueAt l u := by
  unfold spread valueAt
  cases l.lookup u <;> simp

lemma valueAt_out (l : List (ℕ × F)) (D : List ℕ) (hD : ∀ p ∈ l, p.1 ∈ D) (u : ℕ) (hu : u ∉ D) : valueAt l u = 0 := by
  unfold valueAt
  have : l.lookup u = none := by
    rw [List.lookup_eq_none_iff]
    intro p hp
    simp only [Bool.not_eq_true, beq_eq_false_iff_ne, ne_eq, bne_iff_ne, Bool.not_eq_eq_eq_not, Bool.not_true]
    rintro rfl
    exact hu (hD p hp)
  rw [this]
  rfl

lemma cov_spread (C : List ℕ) (nSub : Fin m → ℕ) (l : Fin m → List (ℕ × F))
    (hz : ∀ a, ∑ i : Fin C.length, valueAt (l a) C[i] = 0) (a b : Fin m) :
    cov (fun (i : Fin C.length) a => spread C.length (nSub a) (l a) C[i]) a b =
      ((C.length : F) ^ 2 / ((C.length : F) - 1)) * ((∑ i : Fin C.length, valueAt (l a) C[i] * valueAt (l b) C[i]) / ((nSub a : F) * (nSub b : F))) := by
  have hmean : ∀ a, DR.mean (fun j : Fin C.length => spread C.length (nSub a) (l a) C[j]) = (0 : F) := by
    intro a
    unfold DR.mean
    simp only [spread_eq]
    rw [← Finset.mul_sum, hz]
    simp
  unfold cov
  simp only [hmean, sub_zero, Fintype.card_fin]
  simp only [spread_eq]
  rw [Finset.sum_congr rfl (g := fun i : Fin C.length => (C.length : F) ^ 2 / ((nSub a : F) * (nSub b : F)) * (valueAt (l a) C[i] * valueAt (l b) C[i]))
    fun i _ => by
      simp only [div_eq_mul_inv, mul_inv]
      ring]
  rw [← Finset.mul_sum]
  simp only [div_eq_mul_inv, mul_inv]
  ring

/-- C183 violated, units of the cell outside every comparison (a cohort whose comparison cannot be estimated, never-treated units coded as
infinity): the distributed code counts them in the cell, the single-machine code does not.  With centred influence values the estimate and
the influence values stay the same, and the squared standard error is multiplied by `(N'²/(N'-1)) / (N²/(N-1))`, which is more than one, `N'`
units in the distributed cell and `N` in the single-machine one. -/
theorem C183_extra_violated (inv : (Fin m → Fin m → F) → Fin m → Fin m → F)
    (hinv : ∀ (k : F) (M : Fin m → Fin m → F), k ≠ 0 → inv (fun a b => k * M a b) = fun a b => k⁻¹ * inv M a b)
    (att : Fin m → F) (nSub : Fin m → ℕ) (l : Fin m → List (ℕ × F)) (C D : List ℕ) (hC : C.Nodup) (hD : D.Nodup) (hDC : ∀ u ∈ D, u ∈ C)
    (h2 : 2 ≤ D.length) (hlt : D.length < C.length) (hl : ∀ a, ∀ p ∈ l a, p.1 ∈ D)
    (hz : ∀ a, ∑ i : Fin D.length, valueAt (l a) D[i] = 0) (nUnits : ℕ) :
    let big := gmm inv att (fun (i : Fin C.length) a => spread C.length (nSub a) (l a) C[i]) nUnits
    let small := gmm inv att (fun (i : Fin D.length) a => spread D.length (nSub a) (l a) D[i]) nUnits
    let k : F := ((C.length : F) ^ 2 / ((C.length : F) - 1)) / ((D.length : F) ^ 2 / ((D.length : F) - 1))
    big.1 = small.1 ∧
    (∀ (i : Fin C.length) (j : Fin D.length), C[i] = D[j] →
      (nUnits : F) / (C.length : F) * big.2.1 i = (nUnits : F) / (D.length : F) * small.2.1 j) ∧
    (∀ i : Fin C.length, C[i] ∉ D → big.2.1 i = 0) ∧
    big.2.2 = k * small.2.2 ∧ 1 < k := by
  intro big small k
  have c2 : (2 : F) ≤ (D.length : F) := by exact_mod_cast h2
  have clt : (D.length : F) < (C.length : F) := by exact_mod_cast hlt
  have sumEq : ∀ φ : ℕ → F, (∀ u, u ∉ D → φ u = 0) → ∑ i : Fin C.length, φ C[i] = ∑ i : Fin D.length, φ D[i] := fun φ h =>
    sum_over_cell C D hC hD φ hDC fun u _ hu => h u hu
  have hzC : ∀ a, ∑ i : Fin C.length, valueAt (l a) C[i] = 0 := fun a => by
    rw [sumEq _ (fun u hu => valueAt_out (l a) D (hl a) u hu), hz]
  obtain ⟨S, hS⟩ : ∃ S : Fin m → Fin m → F, S = fun a b =>
    (∑ i : Fin D.length, valueAt (l a) D[i] * valueAt (l b) D[i]) / ((nSub a : F) * (nSub b : F)) := ⟨_, rfl⟩
  have covD : cov (fun (i : Fin D.length) a => spread D.length (nSub a) (l a) D[i]) =
      fun a b => ((D.length : F) ^ 2 / ((D.length : F) - 1)) * S a b := by
    funext a b
    rw [cov_spread D nSub l hz, hS]
  have covC : cov (fun (i : Fin C.length) a => spread C.length (nSub a) (l a) C[i]) =
      fun a b => ((C.length : F) ^ 2 / ((C.length : F) - 1)) * S a b := by
    funext a b
    rw [cov_spread C nSub l hzC, hS, sumEq (fun u => valueAt (l a) u * valueAt (l b) u)
      (fun u hu => by rw [valueAt_out (l a) D (hl a) u hu, zero_mul])]
  have kD : ((D.length : F) ^ 2 / ((D.length : F) - 1)) ≠ 0 := div_ne_zero (pow_ne_zero _ (by linarith)) (by linarith)
  have kC : ((C.length : F) ^ 2 / ((C.length : F) - 1)) ≠ 0 := div_ne_zero (pow_ne_zero _ (by linarith)) (by linarith)
  have w : ∀ (c : F), c ≠ 0 → gmmW (fun a b => c⁻¹ * inv S a b) = gmmW (inv S) := by
    intro c hc
    funext a
    unfold gmmW
    simp only [← Finset.mul_sum]
    rw [mul_div_mul_left _ _ (inv_ne_zero hc)]
  have wC : gmmW (inv (cov (fun (i : Fin C.length) a => spread C.length (nSub a) (l a) C[i]))) = gmmW (inv S) := by
    rw [covC, hinv _ _ kC, w _ kC]
  have wD : gmmW (inv (cov (fun (i : Fin D.length) a => spread D.length (nSub a) (l a) D[i]))) = gmmW (inv S) := by
    rw [covD, hinv _ _ kD, w _ kD]
  refine ⟨?_, ?_, ?_, ?_, ?_⟩
  · show ∑ a, gmmW _ a * att a = ∑ a, gmmW _ a * att a
    rw [wC, wD]
  · intro i j hij
    show (nUnits : F) / (C.length : F) * ∑ a, spread C.length (nSub a) (l a) C[i] * gmmW _ a =
      (nUnits : F) / (D.length : F) * ∑ a, spread D.length (nSub a) (l a) D[j] * gmmW _ a
    rw [wC, wD, hij, Finset.mul_sum, Finset.mul_sum]
    refine Finset.sum_congr rfl fun a _ => ?_
    rw [spread_eq, spread_eq]
    have n1 : (C.length : F) ≠ 0 := by linarith
    have n2 : (D.length : F) ≠ 0 := by linarith
    have e : ∀ (x y z : F), x ≠ 0 → (nUnits : F) / x * (x / y * z) = (nUnits : F) / y * z := by
      intro x y z hx
      rw [← mul_assoc, div_mul_div_cancel₀ hx]
    rw [mul_assoc, mul_assoc, e _ _ _ n1, e _ _ _ n2]
  · intro i hi
    show ∑ a, spread C.length (nSub a) (l a) C[i] * gmmW _ a = 0
    refine Finset.sum_eq_zero fun a _ => ?_
    rw [spread_eq, valueAt_out (l a) D (hl a) _ hi, mul_zero, zero_mul]
  · show 1 / ((nUnits : F) * ∑ a, ∑ b, inv (cov _) a b) = k * (1 / ((nUnits : F) * ∑ a, ∑ b, inv (cov _) a b))
    rw [covC, covD, hinv _ _ kC, hinv _ _ kD]
    simp only [← Finset.mul_sum]
    show _ = ((C.length : F) ^ 2 / ((C.length : F) - 1)) / ((D.length : F) ^ 2 / ((D.length : F) - 1)) * _
    generalize ((C.length : F) ^ 2 / ((C.length : F) - 1)) = x at kC ⊢
    generalize ((D.length : F) ^ 2 / ((D.length : F) - 1)) = y at kD ⊢
    generalize ∑ a, ∑ b, inv S a b = z
    have n2 : ∀ u : F, u ≠ 0 → 1 / ((nUnits : F) * (u⁻¹ * z)) = u * (1 / ((nUnits : F) * z)) := by
      intro u hu
      simp only [one_div, mul_inv, inv_inv]
      ring
    rw [n2 x kC, n2 y kD, ← mul_assoc, div_mul_cancel₀ _ kD]
  · show 1 < ((C.length : F) ^ 2 / ((C.length : F) - 1)) / ((D.length : F) ^ 2 / ((D.length : F) - 1))
    have p1 : (0 : F) < (D.length : F) - 1 := by linarith
    have p2 : (0 : F) < (C.length : F) - 1 := by linarith
    have c3 : (D.length : F) + 1 ≤ (C.length : F) := by exact_mod_cast hlt
    rw [lt_div_iff₀ (div_pos (pow_pos (by linarith) 2) p1), one_mul, div_lt_div_iff₀ p1 p2]
    generalize (D.length : F) = x at *
    generalize (C.length : F) = y at *
    have key : 0 < (y - x) * (x * y - x - y) := by
      refine mul_pos (by linarith) ?_
      have h1 : 1 ≤ x - 1 := by linarith
      have h2 : 1 < y - 1 := by linarith
      have : 1 < (x - 1) * (y - 1) := by nlinarith
      linarith
    nlinarith [key]

/-- Hypotheses are met: one comparison of two units among three. -/
example := C183_extra_violated (F := ℚ) (m := 1) (fun M a b => (M a b)⁻¹) (fun k M _ => by funext a b; exact mul_inv _ _) (fun _ => 5)
  (fun _ => 2) (fun _ => [(7, 1), (4, -1)]) [4, 7, 9] [4, 7] (by decide) (by decide) (by decide) (by decide) (by decide) (by decide)
  (by decide +kernel) 3

end Extra

end Verif.Dist.DddDriver
