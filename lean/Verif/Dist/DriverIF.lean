import Verif.Dist.Driver
import Mathlib.Data.List.Sort
import Mathlib.Algebra.Order.BigOperators.Group.List
import Mathlib.Algebra.BigOperators.Field
import Mathlib.Algebra.BigOperators.Ring.Finset

set_option linter.unusedSectionVars false
set_option linter.unusedSimpArgs false

/-!
# Distributed `att_gt`: results, influence values, covariates, joins: C125–C130
-/

namespace Verif.Dist.Driver

open Verif.AttGt Verif.Prep

variable {K : Type*} [Field K]

/-! ## C125: the column shown with an estimate -/

/-- Position and success of a cell. -/
def okAt (est : Spec → Option K) (p : Spec × ℕ) : Bool :=
  match p.1.action with
  | .skip => false
  | .zero => true
  | .compute => (est p.1).isSome

lemma reported_fst (specs : List Spec) (est : Spec → Option K) :
    (reported specs est).map Prod.fst = ((specs.zipIdx.filter (okAt est)).map Prod.snd) := by
  unfold reported
  induction specs.zipIdx with
  | nil => rfl
  | cons p l ih =>
    obtain ⟨s, i⟩ := p
    rw [List.filterMap_cons, List.filter_cons]
    unfold okAt at ih ⊢
    cases ha : s.action with
    | skip => simp [ih]
    | zero => simp [ih]
    | compute =>
      cases he : est s with
      | none => simp [ih, ha, he]
      | some a => simp [ih, ha, he]

lemma nonskip_sorted (specs : List Spec) :
    ((specs.zipIdx.filter fun p => decide (p.1.action ≠ .skip)).map Prod.snd).Pairwise (· < ·) := by
  have h : (specs.zipIdx.map Prod.snd).Pairwise (· < ·) := by
    rw [List.zipIdx_map_snd]
    simpa using List.pairwise_lt_range' (s := 0) (n := specs.length)
  exact h.sublist (List.Sublist.map _ List.filter_sublist)

/-- **C125**: if no computed cell fails, every reported estimate is shown with its own column of influence values. -/
theorem C125_columns (specs : List Spec) (est : Spec → Option K)
    (h : ∀ s ∈ specs, s.action = .compute → (est s).isSome) :
    shownColumns specs est = (reported specs est).map Prod.fst := by
  have e : specs.zipIdx.filter (okAt est) = specs.zipIdx.filter fun p => decide (p.1.action ≠ .skip) := by
    apply List.filter_congr
    intro p hp
    have hm : p.1 ∈ specs := by
      have := List.mem_zipIdx_iff_getElem?.1 (by simpa using hp : (p.1, p.2) ∈ specs.zipIdx)
      exact List.mem_of_getElem? this
    unfold okAt
    cases ha : p.1.action with
    | skip => simp
    | zero => simp
    | compute => simpa using h _ hm ha
  unfold shownColumns
  have hl : (reported specs est).length =
      ((specs.zipIdx.filter fun p => decide (p.1.action ≠ .skip)).map Prod.snd).length := by
    rw [← e, ← reported_fst, List.length_map]
  rw [hl, List.take_length, reported_fst, e]

example : ∃ specs : List Spec, ∃ est : Spec → Option ℚ, (∀ s ∈ specs, s.action = .compute → (est s).isSome) ∧
    shownColumns specs est = [1, 2, 3] :=
  ⟨[⟨2, 1, none, false, .skip⟩, ⟨3, 2, some 2, false, .zero⟩, ⟨3, 3, some 2, true, .compute⟩,
    ⟨3, 4, some 2, true, .compute⟩], fun _ => some 1, by simp, by decide +kernel⟩

/-- **C125 (violated)**: as soon as a computed cell fails and a later cell is reported, some estimate is shown with the
influence values of a different cell. -/
theorem C125_columns_violated (specs : List Spec) (est : Spec → Option K) (c d : ℕ) (s s' : Spec) (hcd : c < d)
    (hs : specs[c]? = some s) (hc : s.action = .compute) (hfail : est s = none)
    (hs' : specs[d]? = some s') (hok : s'.action = .zero ∨ s'.action = .compute ∧ (est s').isSome) :
    shownColumns specs est ≠ (reported specs est).map Prod.fst := by
  intro heq
  have hd : d ∈ (reported specs est).map Prod.fst := by
    rw [reported_fst]
    refine List.mem_map.2 ⟨(s', d), List.mem_filter.2 ⟨?_, ?_⟩, rfl⟩
    · exact List.mem_zipIdx_iff_getElem?.2 hs'
    · unfold okAt
      rcases hok with h | ⟨h, h2⟩
      · simp [h]
      · simp [h, h2]
  have hcn : c ∉ (reported specs est).map Prod.fst := by
    rw [reported_fst]
    intro hm
    obtain ⟨p, hp, rfl⟩ := List.mem_map.1 hm
    obtain ⟨h1, h2⟩ := List.mem_filter.1 hp
    have := List.mem_zipIdx_iff_getElem?.1 (by simpa using h1 : (p.1, p.2) ∈ specs.zipIdx)
    simp only at this
    rw [hs] at this
    have hps : p.1 = s := (Option.some.inj this).symm
    unfold okAt at h2
    rw [hps, hc] at h2
    simp [hfail] at h2
  have hcN : c ∈ (specs.zipIdx.filter fun p => decide (p.1.action ≠ .skip)).map Prod.snd := by
    refine List.mem_map.2 ⟨(s, c), List.mem_filter.2 ⟨List.mem_zipIdx_iff_getElem?.2 hs, ?_⟩, rfl⟩
    simp [hc]
  rw [← heq] at hd hcn
  unfold shownColumns at hd hcn
  have hsort := nonskip_sorted specs
  generalize (specs.zipIdx.filter fun p => decide (p.1.action ≠ .skip)).map Prod.snd = N at *
  generalize (reported specs est).length = k at *
  rw [← List.take_append_drop k N] at hcN hsort
  rcases List.mem_append.1 hcN with h | h
  · exact hcn h
  · exact absurd ((List.pairwise_append.1 hsort).2.2 d hd c h) (by omega)

/-- In the case below the estimate for period 4 is shown with the (zero) influence values of the failed period 3. -/
example : ∃ specs : List Spec, ∃ est : Spec → Option ℚ,
    (reported specs est).map Prod.fst = [0, 2] ∧ shownColumns specs est = [0, 1] :=
  ⟨[⟨3, 2, some 2, false, .zero⟩, ⟨3, 3, some 2, true, .compute⟩, ⟨3, 4, some 2, true, .compute⟩],
    fun s => if s.t = 3 then none else some 1, by decide +kernel⟩

/-! ## C126: which row an influence value is stored in -/

lemma rowOf_getElem (ids : List ℤ) (hs : ids.Pairwise (· < ·)) (r : ℕ) (u : ℤ) (h : ids[r]? = some u) :
    rowOf ids u = r := by
  unfold rowOf
  induction ids generalizing r with
  | nil => simp at h
  | cons a l ih =>
    rw [List.pairwise_cons] at hs
    cases r with
    | zero =>
      have : a = u := by simpa using h
      subst this
      simp
    | succ r =>
      have hu : l[r]? = some u := by simpa using h
      have : a < u := hs.1 u (List.mem_of_getElem? hu)
      simp [this, ih hs.2 r hu]

lemma storeOne_get (ids : List ℤ) (hs : ids.Pairwise (· < ·)) (c : K) (col : List K) (p : ℤ × K) (r : ℕ) (u : ℤ)
    (h : ids[r]? = some u) (hl : col.length = ids.length) :
    (storeOne ids c col p)[r]? = if p.1 = u then some (c * p.2) else col[r]? := by
  have hr : r < ids.length := by
    by_contra hn
    rw [List.getElem?_eq_none (by omega)] at h
    cases h
  unfold storeOne
  by_cases hp : p.1 = u
  · have hrow : rowOf ids p.1 = r := rowOf_getElem ids hs r _ (by rw [hp]; exact h)
    rw [hrow, if_pos (by rw [h, hp]), if_pos hp]
    rw [List.getElem?_set_self (by omega)]
  · rw [if_neg hp]
    split_ifs with hq
    · rw [List.getElem?_set_ne]
      intro heq
      rw [heq, h] at hq
      exact hp (Option.some.inj hq).symm
    · rfl

lemma storeOne_length (ids : List ℤ) (c : K) (col : List K) (p : ℤ × K) : (storeOne ids c col p).length = col.length := by
  unfold storeOne
  split_ifs <;> simp

lemma foldl_storeOne (ids : List ℤ) (hs : ids.Pairwise (· < ·)) (c : K) (r : ℕ) (u : ℤ) (h : ids[r]? = some u)
    (l : List (ℤ × K)) (hn : (l.map Prod.fst).Nodup) (col : List K) (hl : col.length = ids.length) :
    ((l.foldl (storeOne ids c) col).length = ids.length) ∧
    (∀ v, (u, v) ∈ l → (l.foldl (storeOne ids c) col)[r]? = some (c * v)) ∧
    (u ∉ l.map Prod.fst → (l.foldl (storeOne ids c) col)[r]? = col[r]?) := by
  induction l generalizing col with
  | nil => exact ⟨hl, by simp, fun _ => rfl⟩
  | cons p l ih =>
    rw [List.map_cons, List.nodup_cons] at hn
    have hl' : (storeOne ids c col p).length = ids.length := by rw [storeOne_length, hl]
    obtain ⟨h1, h2, h3⟩ := ih hn.2 (storeOne ids c col p) hl'
    refine ⟨h1, ?_, ?_⟩
    · intro v hv
      rw [List.foldl_cons]
      rcases List.mem_cons.1 hv with h' | h'
      · subst h'
        rw [h3 hn.1, storeOne_get ids hs c col _ r u h hl, if_pos rfl]
      · exact h2 v h'
    · intro hu
      rw [List.map_cons, List.mem_cons, not_or] at hu
      rw [List.foldl_cons, h3 hu.2, storeOne_get ids hs c col _ r u h hl, if_neg (fun h => hu.1 h.symm)]

lemma panelColumn_flatten (ids : List ℤ) (c : K) (done : List (List (ℤ × K))) (col : List K) :
    done.foldl (storePart ids c) col = done.flatten.foldl (storeOne ids c) col := by
  induction done generalizing col with
  | nil => rfl
  | cons p l ih => rw [List.foldl_cons, List.flatten_cons, List.foldl_append, ih]; rfl

/-- **C126**: with a panel, in whatever order the partitions finish, the row of a unit in the cell holds its influence value
scaled by the share of the cell, and every other row holds 0. -/
theorem C126_panel_rows (ids : List ℤ) (hs : ids.Pairwise (· < ·)) (c : K) (parts done : List (List (ℤ × K)))
    (hd : done.Perm parts) (hn : (parts.flatten.map Prod.fst).Nodup) (r : ℕ) (u : ℤ) (hr : ids[r]? = some u) :
    (panelColumn ids c done).length = ids.length ∧
    (∀ v, (u, v) ∈ parts.flatten → (panelColumn ids c done)[r]? = some (c * v)) ∧
    (u ∉ parts.flatten.map Prod.fst → (panelColumn ids c done)[r]? = some 0) := by
  have hp : done.flatten.Perm parts.flatten := hd.flatten
  have hrl : r < ids.length := by
    by_contra hn
    rw [List.getElem?_eq_none (by omega)] at hr
    cases hr
  obtain ⟨h1, h2, h3⟩ := foldl_storeOne ids hs c r u hr done.flatten ((hp.map _).nodup_iff.2 hn)
    (List.replicate ids.length 0) (by simp)
  unfold panelColumn
  rw [panelColumn_flatten]
  refine ⟨h1, fun v hv => h2 v (hp.mem_iff.2 hv), fun hu => ?_⟩
  rw [h3 (fun h => hu ((hp.map _).mem_iff.1 h))]
  simp [hrl]

example : panelColumn [3, 5, 8, 9] (2 : ℚ) [[(9, 4)], [(5, 1), (3, 7)]] = [14, 2, 0, 8] := by decide +kernel

lemma rcNumber_aux (parts : List (List K)) (acc : List (List (ℕ × K))) (k : ℕ) :
    (parts.foldl (fun acc p => (acc.1 ++ [p.mapIdx fun i v => (acc.2 + i, v)], acc.2 + p.length)) (acc, k)).1.flatten =
      acc.flatten ++ parts.flatten.mapIdx fun i v => (k + i, v) := by
  induction parts generalizing acc k with
  | nil => simp
  | cons p l ih =>
    rw [List.foldl_cons, ih]
    simp only [List.flatten_append, List.flatten_cons, List.flatten_nil, List.append_nil, List.append_assoc,
      List.mapIdx_append]
    congr 2
    apply List.ext_getElem (by simp)
    intro i h1 h2
    simp [Nat.add_comm, Nat.add_left_comm]

lemma rcNumber_flatten (parts : List (List K)) :
    (rcNumber parts).flatten = parts.flatten.mapIdx fun i v => (i, v) := by
  unfold rcNumber
  rw [rcNumber_aux]
  simp

lemma set_fold_get (c : K) (l : List (ℕ × K)) (hn : (l.map Prod.fst).Nodup) (col : List K) (r : ℕ) (hr : r < col.length) :
    (∀ v, (r, v) ∈ l → (l.foldl (fun c' p => c'.set p.1 (c * p.2)) col)[r]? = some (c * v)) ∧
    (r ∉ l.map Prod.fst → (l.foldl (fun c' p => c'.set p.1 (c * p.2)) col)[r]? = col[r]?) := by
  induction l generalizing col with
  | nil => exact ⟨by simp, fun _ => rfl⟩
  | cons p l ih =>
    rw [List.map_cons, List.nodup_cons] at hn
    obtain ⟨h2, h3⟩ := ih hn.2 (col.set p.1 (c * p.2)) (by simpa using hr)
    refine ⟨?_, ?_⟩
    · intro v hv
      rw [List.foldl_cons]
      rcases List.mem_cons.1 hv with h' | h'
      · subst h'
        rw [h3 hn.1, List.getElem?_set_self hr]
      · exact h2 v h'
    · intro hu
      rw [List.map_cons, List.mem_cons, not_or] at hu
      rw [List.foldl_cons, h3 hu.2, List.getElem?_set_ne (fun h => hu.1 h.symm)]

lemma set_fold_length (c : K) (l : List (ℕ × K)) (col : List K) :
    (l.foldl (fun c' p => c'.set p.1 (c * p.2)) col).length = col.length := by
  induction l generalizing col with
  | nil => rfl
  | cons p l ih => rw [List.foldl_cons, ih, List.length_set]

lemma rcColumn_flatten (c : K) (done : List (List (ℕ × K))) (col : List K) :
    done.foldl (fun col part => part.foldl (fun c' p => c'.set p.1 (c * p.2)) col) col =
      done.flatten.foldl (fun c' p => c'.set p.1 (c * p.2)) col := by
  induction done generalizing col with
  | nil => rfl
  | cons p l ih => rw [List.foldl_cons, List.flatten_cons, List.foldl_append, ih]

/-- The column of influence values that belongs to a cell: `obs` lists the observations of the cell, `vals` their values. -/
def trueColumn (nObs : ℕ) (scale : K) (obs : List ℕ) (vals : List K) : List K :=
  (List.range nObs).map fun r => match (obs.zip vals).find? (fun p => decide (p.1 = r)) with
    | some p => scale * p.2
    | none => 0

/-- **C126**: with repeated cross-sections the value of the `i`-th row of the cell goes to row `i`, whichever observation it
belongs to, in any order of completion. -/
theorem C126_rc_rows (nObs : ℕ) (c : K) (parts : List (List K)) (done : List (List (ℕ × K)))
    (hd : done.Perm (rcNumber parts)) (hlen : parts.flatten.length ≤ nObs) :
    rcColumn nObs c done = parts.flatten.map (fun v => c * v) ++ List.replicate (nObs - parts.flatten.length) 0 := by
  have hp : done.flatten.Perm (parts.flatten.mapIdx fun i v => (i, v)) := by
    rw [← rcNumber_flatten]; exact hd.flatten
  have hfst : (parts.flatten.mapIdx fun i v => (i, v)).map Prod.fst = List.range parts.flatten.length := by
    apply List.ext_getElem (by simp)
    intro i h1 h2
    simp
  have hn : (done.flatten.map Prod.fst).Nodup := by
    rw [(hp.map _).nodup_iff, hfst]; exact List.nodup_range
  unfold rcColumn
  rw [rcColumn_flatten]
  apply List.ext_getElem?
  intro r
  by_cases hr : r < nObs
  · obtain ⟨h2, h3⟩ := set_fold_get c done.flatten hn (List.replicate nObs 0) r (by simpa using hr)
    by_cases hrl : r < parts.flatten.length
    · rw [h2 (parts.flatten[r]) (hp.mem_iff.2 (by
        rw [List.mem_mapIdx]; exact ⟨r, hrl, rfl⟩))]
      rw [List.getElem?_append_left (by rw [List.length_map]; exact hrl), List.getElem?_map,
        List.getElem?_eq_getElem hrl]
      rfl
    · rw [h3 (fun h => hrl (by
        have := (hp.map Prod.fst).mem_iff.1 h
        rw [hfst] at this
        simpa using this))]
      rw [List.getElem?_append_right (by rw [List.length_map]; omega)]
      simp only [List.length_map, List.getElem?_replicate]
      rw [if_pos hr, if_pos (by omega)]
  · rw [List.getElem?_eq_none (by rw [set_fold_length]; simpa using hr)]
    rw [List.getElem?_eq_none]
    simp only [List.length_append, List.length_map, List.length_replicate]
    omega

example : rcColumn 6 (2 : ℚ) (rcNumber [[1, 2], [], [3]]) = [2, 4, 6, 0, 0, 0] := by decide +kernel

/-- Inner product of two columns (`chunked_vcov` up to the factor `1/n²`). -/
def inner (a b : List K) : K := (List.zipWith (· * ·) a b).sum

lemma inner_trueColumn_disjoint (nObs : ℕ) (c d : K) (obs obs' : List ℕ) (v w : List K) (h : obs.Disjoint obs') :
    inner (trueColumn nObs c obs v) (trueColumn nObs d obs' w) = 0 := by
  unfold inner trueColumn
  rw [List.zipWith_map, List.zipWith_self]
  apply List.sum_eq_zero
  intro x hx
  obtain ⟨r, _, rfl⟩ := List.mem_map.1 hx
  cases h1 : (obs.zip v).find? (fun p => decide (p.1 = r)) with
  | none => simp
  | some p =>
    cases h2 : (obs'.zip w).find? (fun p => decide (p.1 = r)) with
    | none => simp
    | some q =>
      have e1 : p.1 = r := by simpa using List.find?_some h1
      have e2 : q.1 = r := by simpa using List.find?_some h2
      have m1 := (List.of_mem_zip (List.mem_of_find?_eq_some h1 : (p.1, p.2) ∈ _)).1
      have m2 := (List.of_mem_zip (List.mem_of_find?_eq_some h2 : (q.1, q.2) ∈ _)).1
      rw [e1] at m1
      rw [e2] at m2
      exact absurd m2 (h m1)

lemma inner_rc (nObs : ℕ) (c d : K) (v w : List K) (hv : v.length ≤ nObs) (hw : w.length = v.length) :
    inner (rcColumn nObs c (rcNumber [v])) (rcColumn nObs d (rcNumber [w])) =
      c * d * (List.zipWith (· * ·) v w).sum := by
  rw [C126_rc_rows nObs c [v] _ (List.Perm.refl _) (by simpa using hv),
    C126_rc_rows nObs d [w] _ (List.Perm.refl _) (by simpa [hw] using hv)]
  simp only [List.flatten_cons, List.flatten_nil, List.append_nil]
  unfold inner
  rw [List.zipWith_append (by simp [hw]), List.sum_append, hw, List.zipWith_replicate]
  rw [List.sum_eq_zero (l := List.replicate _ _) (by
    intro x hx
    rw [(List.mem_replicate.1 hx).2, mul_zero]), add_zero, List.zipWith_map]
  clear hv hw
  induction v generalizing w with
  | nil => simp
  | cons a v ih =>
    cases w with
    | nil => simp
    | cons b w =>
      simp only [List.zipWith_cons_cons, List.sum_cons]
      rw [ih]
      ring

/-- **C126 (violated)**: with repeated cross-sections two cells that share no observation are uncorrelated, but the stored
columns of two such cells with the same values are perfectly correlated, so covariances between cells (and every aggregated
standard error) are wrong. -/
theorem C126_rc_rows_violated [LinearOrder K] [IsStrictOrderedRing K] (nObs : ℕ) (c : K) (hc : c ≠ 0) (v : List K)
    (hv : v.length ≤ nObs) (hne : ∃ x ∈ v, x ≠ 0) (obs obs' : List ℕ) (hdis : obs.Disjoint obs') :
    inner (trueColumn nObs c obs v) (trueColumn nObs c obs' v) = 0 ∧
      0 < inner (rcColumn nObs c (rcNumber [v])) (rcColumn nObs c (rcNumber [v])) := by
  refine ⟨inner_trueColumn_disjoint nObs c c obs obs' v v hdis, ?_⟩
  rw [inner_rc nObs c c v v hv rfl, List.zipWith_self]
  apply mul_pos (mul_self_pos.2 hc)
  obtain ⟨x, hx, hx0⟩ := hne
  have hle : x * x ≤ (v.map fun a => a * a).sum :=
    List.single_le_sum (by
      intro y hy
      obtain ⟨a, _, rfl⟩ := List.mem_map.1 hy
      exact mul_self_nonneg a) _ (List.mem_map.2 ⟨x, hx, rfl⟩)
  exact lt_of_lt_of_le (mul_self_pos.2 hx0) hle

example : ∃ v : List ℚ, v.length ≤ 4 ∧ (∃ x ∈ v, x ≠ 0) ∧ ([0, 1] : List ℕ).Disjoint [2, 3] :=
  ⟨[1, -1], by decide, by decide +kernel, by intro x h1 h2; simp at h1 h2; omega⟩

/-- **C126**: the sum of squares of one repeated cross-section column, hence the standard error of a single cell, is the
right one: it depends on the scaled values only. -/
theorem C126_rc_own_variance (nObs : ℕ) (c : K) (v : List K) (hv : v.length ≤ nObs) :
    inner (rcColumn nObs c (rcNumber [v])) (rcColumn nObs c (rcNumber [v])) = (v.map fun x => (c * x) * (c * x)).sum := by
  rw [inner_rc nObs c c v v hv rfl, List.zipWith_self, ← List.sum_map_mul_left]
  congr 1
  apply List.map_congr_left
  intro a _
  ring

example : inner (rcColumn 4 (2 : ℚ) (rcNumber [[1, -1]])) (rcColumn 4 2 (rcNumber [[1, -1]])) = 8 := by decide +kernel

/-! ## C127: rows may sit in any partition -/

/-- **C127**: on Dask the cell is estimated from all partitions as soon as the first one has a row. -/
theorem C127_dask {R A : Type*} (combine : List (List R) → Option A) (p : List R) (parts : List (List R)) (hp : p ≠ []) :
    daskCell combine (p :: parts) = combine (p :: parts) := by
  unfold daskCell
  simp [List.isEmpty_iff, hp]

/-- **C127 (violated)**: on Dask the result depends on the placement of the rows: with all rows in one partition the cell is
estimated, with an empty partition in front of it the cell is silently missing. -/
theorem C127_partitions_violated {R A : Type*} (combine : List (List R) → Option A) (whole : List R → Option A)
    (hc : ∀ q, combine q = whole q.flatten) (rows : List R) (hne : rows ≠ []) (a : A) (ha : whole rows = some a) :
    ([rows] : List (List R)).flatten = ([[], rows] : List (List R)).flatten ∧
      daskCell combine [rows] = some a ∧ daskCell combine [[], rows] = none := by
  refine ⟨by simp, ?_, rfl⟩
  rw [C127_dask combine rows [] hne, hc]
  simpa using ha

/-- **C127**: on Spark the result only depends on the rows: for a combination that does, every placement of the same rows in
partitions gives the same result. -/
theorem C127_spark {R A : Type*} (combine : List (List R) → Option A) (whole : List R → Option A)
    (hc : ∀ q, combine q = whole q.flatten) (parts : List (List R)) (hne : parts.flatten ≠ []) :
    sparkCell combine parts = whole parts.flatten := by
  unfold sparkCell
  have hf : (parts.filter fun p => !p.isEmpty).flatten = parts.flatten := List.flatten_filter_not_isEmpty
  cases h : (parts.filter fun p => !p.isEmpty) with
  | nil =>
    rw [h] at hf
    exact absurd hf.symm hne
  | cons q l =>
    have hq : q ≠ [] := by
      have : q ∈ parts.filter fun p => !p.isEmpty := by rw [h]; exact List.mem_cons_self
      simpa [List.isEmpty_iff] using (List.mem_filter.1 this).2
    rw [C127_dask combine q l hq, hc, ← h, hf]

/-- The same three rows: estimated when the first partition has one, not estimated otherwise; always estimated on Spark. -/
example : let mean : List (List ℚ) → Option ℚ := fun q => some (q.flatten.sum / q.flatten.length)
    daskCell mean [[1], [2, 6]] = some 3 ∧ daskCell mean [[], [1, 2, 6]] = none ∧ sparkCell mean [[], [1, 2, 6]] = some 3 := by
  decide +kernel

/-! ## C128: the period whose covariates are used -/

lemma head_insertionSort_le (l : List ℤ) (x y : ℤ) (hx : x ∈ l) (hy : (l.insertionSort (· ≤ ·)).head? = some y) : y ≤ x := by
  have hs := List.pairwise_insertionSort (· ≤ ·) l
  have hm : x ∈ l.insertionSort (· ≤ ·) := (List.mem_insertionSort _).2 hx
  cases h : l.insertionSort (· ≤ ·) with
  | nil => rw [h] at hm; cases hm
  | cons a t =>
    rw [h] at hy hs hm
    have : a = y := by simpa using hy
    subst this
    rcases List.mem_cons.1 hm with h' | h'
    · exact le_of_eq h'.symm
    · exact (List.pairwise_cons.1 hs).1 x h'

/-- **C128**: with never-treated comparisons the covariates of a cell are read in the base period used on one machine if no
cell of the cohort uses an earlier period. -/
theorem C128_first (specs : List Spec) (t b : ℤ) (c : Spec) (hc : c ∈ specs) (ha : c.action = .compute)
    (hb : c.pret = some b ∨ c.t = b)
    (hmin : ∀ d ∈ specs, d.action = .compute → b ≤ d.t ∧ ∀ p, d.pret = some p → b ≤ p) :
    distCovPeriod .neverTreated specs t = some b := by
  have hmem : b ∈ ((specs.filter fun s => s.action = .compute).flatMap fun s => s.t :: s.pret.toList).dedup := by
    rw [List.mem_dedup, List.mem_flatMap]
    refine ⟨c, List.mem_filter.2 ⟨hc, by simpa using ha⟩, ?_⟩
    rcases hb with h | h
    · rw [h]; simp
    · simp [h]
  unfold distCovPeriod pivotTimes
  simp only
  cases h : (((specs.filter fun s => s.action = .compute).flatMap fun s => s.t :: s.pret.toList).dedup.insertionSort
      (· ≤ ·)) with
  | nil => rw [← List.mem_insertionSort (· ≤ ·), h] at hmem; cases hmem
  | cons y l =>
    have hle : y ≤ b := head_insertionSort_le _ b y hmem (by rw [h]; rfl)
    have hy : y ∈ (((specs.filter fun s => s.action = .compute).flatMap fun s => s.t :: s.pret.toList).dedup) := by
      rw [← List.mem_insertionSort (· ≤ ·), h]; exact List.mem_cons_self
    rw [List.mem_dedup, List.mem_flatMap] at hy
    obtain ⟨d, hd, hyd⟩ := hy
    obtain ⟨hd1, hd2⟩ := List.mem_filter.1 hd
    obtain ⟨m1, m2⟩ := hmin d hd1 (by simpa using hd2)
    have hge : b ≤ y := by
      rcases List.mem_cons.1 hyd with h' | h'
      · rw [h']; exact m1
      · exact m2 y (by simpa using h')
    have : y = b := le_antisymm hle hge
    simp [this]

example : distCovPeriod .neverTreated (cellSpecs .varying [1, 2, 3] 0 [2]) 2 = some 1 ∧
    localCovPeriod [1, 2, 3] 1 0 = some 1 := by decide +kernel

/-- **C128 (violated)**: with not-yet-treated comparisons and a varying base period, covariates are always read in the period
of the cell itself, after the base period read on one machine. -/
theorem C128_notyet_violated (periods : List ℤ) (hs : periods.Pairwise (· < ·)) (specs : List Spec) (i p : ℕ) (t b : ℤ)
    (ht : periods[i + timeFactor .varying]? = some t) (hb : localCovPeriod periods i p = some b) :
    distCovPeriod .notYetTreated specs t = some t ∧ b < t := by
  refine ⟨rfl, ?_⟩
  unfold localCovPeriod at hb
  have h1 : min p i < i + timeFactor .varying := by
    have : timeFactor .varying = 1 := rfl
    omega
  obtain ⟨ha, rfl⟩ := List.getElem?_eq_some_iff.1 hb
  obtain ⟨hc, rfl⟩ := List.getElem?_eq_some_iff.1 ht
  exact List.pairwise_iff_getElem.1 hs _ _ ha hc h1

example : ([1, 2, 3] : List ℤ)[1 + timeFactor .varying]? = some 3 ∧ localCovPeriod [1, 2, 3] 1 1 = some 2 := by decide

/-- **C128 (violated)**: with never-treated comparisons all cells of a cohort read the covariates of the cohort's earliest
period, which precedes the base period read on one machine as soon as any other cell of the cohort starts earlier. -/
theorem C128_never_violated (specs : List Spec) (t s b e : ℤ) (hd : distCovPeriod .neverTreated specs t = some s)
    (c : Spec) (hc : c ∈ specs) (ha : c.action = .compute) (he : c.pret = some e ∨ c.t = e) (hlt : e < b) : s < b := by
  refine lt_of_le_of_lt ?_ hlt
  unfold distCovPeriod pivotTimes at hd
  refine head_insertionSort_le _ e s ?_ hd
  rw [List.mem_dedup, List.mem_flatMap]
  refine ⟨c, List.mem_filter.2 ⟨hc, by simpa using ha⟩, ?_⟩
  rcases he with h | h
  · rw [h]; simp
  · simp [h]

example : distCovPeriod .neverTreated (cellSpecs .varying [1, 2, 3, 4] 0 [3]) 4 = some 1 ∧
    localCovPeriod [1, 2, 3, 4] 2 1 = some 2 := by decide +kernel

/-! ## C129: the same comparison repeated -/

section GMM
variable {σ μ : Type*} [Fintype σ] [Fintype μ] [Nonempty μ]

/-- **C129**: with repeated cross-sections and several not-yet-treated cohorts, the pooled comparison is estimated once for
each cohort and the identical results are combined.  Whatever generalized inverse of their (singular) covariance is used, the
combination is the pooled estimate with its own influence values, and the squared standard error is their variance over `n`. -/
theorem C129_repeated (inv : (μ → μ → K) → μ → μ → K) (a : K) (f : σ → K) (n : ℕ)
    (hinv : ∀ i j, ∑ k, ∑ l, Triple.cov (fun i (_ : μ) => f i) i k * inv (Triple.cov (fun i (_ : μ) => f i)) k l *
      Triple.cov (fun i (_ : μ) => f i) l j = Triple.cov (fun i (_ : μ) => f i) i j)
    (hv : (∑ i, (f i - DR.mean f) * (f i - DR.mean f)) / ((Fintype.card σ : K) - 1) ≠ 0) :
    Triple.gmm inv (fun _ : μ => a) (fun i _ => f i) n =
      (a, f, ((∑ i, (f i - DR.mean f) * (f i - DR.mean f)) / ((Fintype.card σ : K) - 1)) / n) := by
  obtain ⟨m0⟩ := ‹Nonempty μ›
  set v := (∑ i, (f i - DR.mean f) * (f i - DR.mean f)) / ((Fintype.card σ : K) - 1) with hvdef
  set P := inv (Triple.cov (fun i (_ : μ) => f i)) with hP
  have hcov : ∀ k l : μ, Triple.cov (fun i (_ : μ) => f i) k l = v := fun k l => rfl
  have hS : ∑ k, ∑ l, P k l = 1 / v := by
    have h := hinv m0 m0
    simp only [hcov] at h
    have e : ∑ k, ∑ l, v * P k l * v = v * v * ∑ k, ∑ l, P k l := by
      rw [Finset.mul_sum]
      refine Finset.sum_congr rfl fun k _ => ?_
      rw [Finset.mul_sum]
      refine Finset.sum_congr rfl fun l _ => ?_
      ring
    rw [e] at h
    field_simp
    have : v * (v * ∑ k, ∑ l, P k l) = v * 1 := by rw [← mul_assoc, h, mul_one]
    have := mul_left_cancel₀ hv this
    rw [← this]; ring
  have hw : ∑ k, Triple.gmmW P k = 1 := by
    unfold Triple.gmmW
    rw [← Finset.sum_div, hS]
    exact div_self (one_div_ne_zero hv)
  unfold Triple.gmm
  simp only [← hP]
  refine Prod.ext ?_ (Prod.ext ?_ ?_)
  · simp only [← Finset.sum_mul, hw, one_mul]
  · funext i
    simp only [← Finset.mul_sum, hw, mul_one]
  · simp only [hS]
    by_cases hn : (n : K) = 0
    · simp [hn]
    · field_simp

/-- Two copies, three observations: a generalized inverse of the covariance exists and the hypotheses hold. -/
example : ∃ f : Fin 3 → ℚ, ∃ P : Fin 2 → Fin 2 → ℚ,
    (∀ i j, ∑ k, ∑ l, Triple.cov (fun i (_ : Fin 2) => f i) i k * P k l *
      Triple.cov (fun i (_ : Fin 2) => f i) l j = Triple.cov (fun i (_ : Fin 2) => f i) i j) ∧
    (∑ i, (f i - DR.mean f) * (f i - DR.mean f)) / ((Fintype.card (Fin 3) : ℚ) - 1) ≠ 0 :=
  ⟨fun i => i.val, fun _ _ => 1 / 4, by decide +kernel, by decide +kernel⟩

end GMM

/-! ## C130: unbalanced panels -/

/-- **C130**: with not-yet-treated comparisons a unit enters a cell exactly when it is observed in both periods of the
cell; with a balanced panel the same holds with never-treated comparisons. -/
theorem C130_joins (specs : List Spec) (t pret : ℤ) (obs : ℤ → Bool) :
    (inMerge t pret obs = true ↔ obs t = true ∧ obs pret = true) ∧
    ((∀ s, obs s = true) → inPivot specs obs = true) := by
  constructor
  · unfold inMerge; simp
  · intro h
    unfold inPivot
    simp [h]

example : inMerge 3 2 (fun s => decide (s = 3 ∨ s = 2)) = true ∧ inMerge 3 2 (fun s => decide (s = 3)) = false := by decide

/-- **C130 (violated)**: with never-treated comparisons and `allow_unbalanced_panel=True`, a unit observed in both periods of a
cell is dropped from it if it misses a period of any other cell of the cohort. -/
theorem C130_pivot_violated (specs : List Spec) (obs : ℤ → Bool) (c : Spec) (hc : c ∈ specs) (ha : c.action = .compute)
    (hm : obs c.t = false ∨ ∃ p, c.pret = some p ∧ obs p = false) : inPivot specs obs = false := by
  unfold inPivot
  rw [Bool.eq_false_iff]
  intro hall
  rw [List.all_eq_true] at hall
  have key : ∀ s, s = c.t ∨ c.pret = some s → obs s = true := by
    intro s hs
    apply hall
    unfold pivotTimes
    rw [List.mem_insertionSort, List.mem_dedup, List.mem_flatMap]
    refine ⟨c, List.mem_filter.2 ⟨hc, by simpa using ha⟩, ?_⟩
    rcases hs with h | h
    · simp [h]
    · rw [h]; simp
  rcases hm with h | ⟨p, hp, h⟩
  · rw [key _ (Or.inl rfl)] at h; cases h
  · rw [key p (Or.inr hp)] at h; cases h

/-- A unit that misses period 1 only is observed in periods 2 and 4, but is not in the cell `(3, 4)`. -/
example : inMerge 4 2 (fun s => decide (s ≠ 1)) = true ∧
    inPivot (cellSpecs .varying [1, 2, 3, 4] 0 [3]) (fun s => decide (s ≠ 1)) = false := by decide +kernel

end Verif.Dist.Driver
