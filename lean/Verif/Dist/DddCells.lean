import Verif.Dist.DddDriver
import Verif.Triple.Entry

/-!
# C276: cells, labels and influence columns of the distributed `ddd`

`dask_ddd` and `spark_ddd` always run the group-time estimator (`dask/_ddd.py:236-262`), also on two-period data for which `ddd()` on a
single machine runs the two-period one (`didtriple/ddd.py:493-545`).  Influence columns are indexed by the position of a cell among all
cohort-period pairs and then cut to the number of estimates returned.
-/

set_option linter.unusedSectionVars false
set_option linter.unusedSimpArgs false

namespace Verif.Dist.DddCells

open Verif

/-! ## Model -/

/-- The third component of `cell_specs`, `dask/_ddd_mp.py:222,229,234,237`. -/
inductive Action
  | skip
  | zero
  | compute (pret : ℤ)
deriving DecidableEq

/-- One pass of the inner loop, `dask/_ddd_mp.py:218-237`, `spark/_ddd_mp.py:252-272`. -/
def actionOf (universal : Bool) (tlist : List ℤ) (g t : ℤ) (i : ℕ) : Action :=
  match Triple.basePeriod universal tlist g i with
  | none => .skip
  | some p =>
    if g ≤ t then
      match Triple.lastPre tlist g with
      | none => .skip
      | some q => if universal && decide (q = t) then .zero else .compute q
    else if universal && decide (p = t) then .zero else .compute p

/-- Number of columns per cohort, `tlist_length`, `dask/_ddd_mp.py:194-195`. -/
def width (universal : Bool) (tlist : List ℤ) : ℕ := tlist.length - (if universal then 0 else 1)

/-- `cell_specs`, `dask/_ddd_mp.py:214-237`, `spark/_ddd_mp.py:250-272`. -/
def cellSpecs (universal : Bool) (tlist glist : List ℤ) : List (ℤ × ℤ × Action) :=
  glist.flatMap fun g => (List.range (width universal tlist)).map fun i =>
    let t := (tlist[i + (if universal then 0 else 1)]?).getD 0
    (g, t, actionOf universal tlist g t i)

/-- The estimate of one entry of `cell_specs` together with its influence column: `none` when nothing is appended to `attgt_list`
(`dask/_ddd_mp.py:289-333`, `dask/_ddd_mp.py:517-600`); a `zero` entry leaves its column at the initial zeros. -/
def outcome {K : Type*} [Zero K] (n : ℕ) (est : ℤ → ℤ → ℤ → Option (K × List K)) (s : ℤ × ℤ × Action) : Option (K × List K) :=
  match s.2.2 with
  | .skip => none
  | .zero => some (0, List.replicate n 0)
  | .compute p => est s.1 s.2.1 p

/-- What the call returns: labelled estimates, and the influence columns next to them; `none` is the `ValueError` "No valid (g,t) cells
found." (`dask/_ddd_mp.py:336-344`, `spark/_ddd_mp.py:370-378`). -/
def result {K : Type*} [Zero K] (n : ℕ) (est : ℤ → ℤ → ℤ → Option (K × List K)) (universal : Bool) (tlist glist : List ℤ) :
    Option (List (ℤ × ℤ × K) × List (List K)) :=
  let specs := cellSpecs universal tlist glist
  let atts := specs.filterMap fun s => (outcome n est s).map fun o => (s.1, s.2.1, o.1)
  let cols := specs.map fun s => ((outcome n est s).map Prod.snd).getD (List.replicate n 0)
  if atts = [] then none else some (atts, cols.take atts.length)

/-! ## Specification -/

/-- Spec: every estimate stands next to its own influence column. -/
def Aligned {K : Type*} [Zero K] (n : ℕ) (est : ℤ → ℤ → ℤ → Option (K × List K)) (specs : List (ℤ × ℤ × Action))
    (r : List (ℤ × ℤ × K) × List (List K)) : Prop :=
  r.2 = specs.filterMap fun s => (outcome n est s).map Prod.snd

/-! ## Proofs -/

lemma actionOf_compute (universal : Bool) (tlist : List ℤ) (g t : ℤ) (i : ℕ) :
    (match Triple.pretOf universal tlist g t i with
      | none => none
      | some pret => if universal && decide (pret = t) then none else some (g, t, pret)) =
    match actionOf universal tlist g t i with
      | .compute p => some (g, t, p)
      | _ => none := by
  unfold Triple.pretOf actionOf
  cases Triple.basePeriod universal tlist g i with
  | none => rfl
  | some p =>
    dsimp only
    by_cases h : g ≤ t
    · rw [if_pos h, if_pos h]
      cases Triple.lastPre tlist g with
      | none => rfl
      | some q => dsimp only; split_ifs <;> rfl
    · rw [if_neg h, if_neg h]
      dsimp only; split_ifs <;> rfl

/-- **C276 (cells).** The entries marked for computation are the cells of the driver modelled for C180–C182. -/
theorem C276_computed_cells (universal : Bool) (tlist glist : List ℤ) :
    (cellSpecs universal tlist glist).filterMap (fun s => match s.2.2 with | .compute p => some (s.1, s.2.1, p) | _ => none) =
      DddDriver.computeCells universal tlist glist := by
  unfold cellSpecs DddDriver.computeCells width
  induction glist with
  | nil => rfl
  | cons g gs ih =>
    rw [List.flatMap_cons, List.filterMap_append, ih, List.flatMap_cons]
    congr 1
    rw [List.filterMap_map]
    apply List.filterMap_congr
    intro i _
    exact (actionOf_compute universal tlist g _ i).symm

example : DddDriver.computeCells false [1, 2, 3] [2, 3] = [(2, 2, 1), (2, 3, 1), (3, 2, 1), (3, 3, 2)] := by decide +kernel

lemma lastPre_none (tlist : List ℤ) (g : ℤ) (h : ∀ t ∈ tlist, g ≤ t) : Triple.lastPre tlist g = none := by
  unfold Triple.lastPre
  rw [List.getLast?_eq_none_iff, List.filter_eq_nil_iff]
  intro t ht
  simpa using h t ht

lemma actionOf_early (universal : Bool) (tlist : List ℤ) (g t : ℤ) (i : ℕ) (h : ∀ s ∈ tlist, g ≤ s) (ht : g ≤ t) :
    actionOf universal tlist g t i = .skip := by
  unfold actionOf
  cases Triple.basePeriod universal tlist g i with
  | none => rfl
  | some p => dsimp only; rw [if_pos ht, lastPre_none tlist g h]

lemma early_cells (universal : Bool) (tlist : List ℤ) (g : ℤ) (h : ∀ s ∈ tlist, g ≤ s) :
    ∀ s ∈ cellSpecs universal tlist [g], s.2.2 = .skip := by
  intro s hs
  simp only [cellSpecs, List.flatMap_cons, List.flatMap_nil, List.append_nil, List.mem_map, List.mem_range] at hs
  obtain ⟨i, hi, rfl⟩ := hs
  dsimp only
  apply actionOf_early _ _ _ _ _ h
  have hlt : i + (if universal then 0 else 1) < tlist.length := by
    unfold width at hi
    split_ifs at hi ⊢ <;> omega
  rw [List.getElem?_eq_getElem hlt, Option.getD_some]
  exact h _ (List.getElem_mem hlt)

lemma cellSpecs_cons (universal : Bool) (tlist : List ℤ) (g : ℤ) (gs : List ℤ) :
    cellSpecs universal tlist (g :: gs) = cellSpecs universal tlist [g] ++ cellSpecs universal tlist gs := by
  simp [cellSpecs]

lemma length_one (universal : Bool) (tlist : List ℤ) (g : ℤ) : (cellSpecs universal tlist [g]).length = width universal tlist := by
  simp [cellSpecs]

/-- **C276 (aligned when nothing is left out).** If every cohort-period pair gives an estimate, each estimate stands next to its own
influence column. -/
theorem C276_aligned {K : Type*} [Zero K] (n : ℕ) (est : ℤ → ℤ → ℤ → Option (K × List K)) (universal : Bool) (tlist glist : List ℤ)
    (hall : ∀ s ∈ cellSpecs universal tlist glist, (outcome n est s).isSome) (r) (hr : result n est universal tlist glist = some r) :
    Aligned n est (cellSpecs universal tlist glist) r ∧ r.2.length = r.1.length := by
  unfold result at hr
  dsimp only at hr
  split_ifs at hr
  cases hr
  have key : ∀ specs : List (ℤ × ℤ × Action), (∀ s ∈ specs, (outcome n est s).isSome) →
      (specs.filterMap fun s => (outcome n est s).map fun o => (s.1, s.2.1, o.1)).length = specs.length ∧
      specs.map (fun s => ((outcome n est s).map Prod.snd).getD (List.replicate n 0)) =
        specs.filterMap fun s => (outcome n est s).map Prod.snd := by
    intro specs
    induction specs with
    | nil => intro _; exact ⟨rfl, rfl⟩
    | cons s l ih =>
      intro h
      obtain ⟨o, ho⟩ := Option.isSome_iff_exists.1 (h s (List.mem_cons_self ..))
      obtain ⟨i1, i2⟩ := ih fun q hq => h q (List.mem_cons_of_mem _ hq)
      constructor
      · rw [List.filterMap_cons_some (b := (s.1, s.2.1, o.1)) (by rw [ho]; rfl), List.length_cons, List.length_cons, i1]
      · rw [List.filterMap_cons_some (b := o.2) (by rw [ho]; rfl), List.map_cons, i2, ho]; rfl
  obtain ⟨k1, k2⟩ := key _ hall
  refine ⟨?_, ?_⟩
  · unfold Aligned
    dsimp only
    rw [k1, k2, List.take_of_length_le]
    rw [← k2, List.length_map]
  · dsimp only
    rw [k1, List.length_take, List.length_map, min_self]

/-- **C276 (violated: cohorts treated from the first period on).** If the data contain a cohort already treated in the first period and
a later one, and every cell of the later cohorts gives an estimate, then none of the estimates belongs to the early cohort, but the first
columns, as many as a cohort has cells, are zero, and every estimate stands next to the column of the estimate one cohort earlier; the
columns of the last cohort are lost.  (With smallest cohort `g`, the driver sorts the cohorts.) -/
theorem C276_shifted_violated {K : Type*} [Zero K] (n : ℕ) (est : ℤ → ℤ → ℤ → Option (K × List K)) (universal : Bool) (tlist : List ℤ)
    (g : ℤ) (gs : List ℤ) (hearly : ∀ t ∈ tlist, g ≤ t) (hne : gs ≠ []) (hw : 0 < width universal tlist)
    (hall : ∀ s ∈ cellSpecs universal tlist gs, (outcome n est s).isSome) :
    ∃ atts own, result n est universal tlist gs = some (atts, own) ∧ own.length = atts.length ∧
      result n est universal tlist (g :: gs) =
        some (atts, List.replicate (width universal tlist) (List.replicate n 0) ++ own.take (own.length - width universal tlist)) := by
  set w := width universal tlist with hwd
  have hnone : ∀ s ∈ cellSpecs universal tlist [g], outcome n est s = none := by
    intro s hs
    unfold outcome
    rw [early_cells universal tlist g hearly s hs]
  have hlen : (cellSpecs universal tlist [g]).length = w := length_one ..
  obtain ⟨a, as, rfl⟩ := List.exists_cons_of_ne_nil hne
  have hge : w ≤ (cellSpecs universal tlist (a :: as)).length := by
    rw [cellSpecs_cons, List.length_append, length_one]; exact Nat.le_add_right ..
  cases hres : result n est universal tlist (a :: as) with
  | none =>
    exfalso
    unfold result at hres
    dsimp only at hres
    split_ifs at hres with h0
    rw [List.filterMap_eq_nil_iff] at h0
    obtain ⟨s, hs⟩ := List.exists_mem_of_length_pos (l := cellSpecs universal tlist (a :: as)) (by omega)
    have := h0 s hs
    obtain ⟨o, ho⟩ := Option.isSome_iff_exists.1 (hall s hs)
    rw [ho] at this
    cases this
  | some r =>
    obtain ⟨atts, own⟩ := r
    obtain ⟨hal, hl⟩ := C276_aligned n est universal tlist (a :: as) hall _ hres
    refine ⟨atts, own, rfl, hl, ?_⟩
    unfold result at hres ⊢
    dsimp only at hres ⊢
    split_ifs at hres with h0
    rw [Option.some.injEq, Prod.mk.injEq] at hres
    obtain ⟨ha, ho⟩ := hres
    rw [ha] at ho
    rw [cellSpecs_cons universal tlist g, List.filterMap_append, List.map_append]
    have e1 : (cellSpecs universal tlist [g]).filterMap (fun s => (outcome n est s).map fun o => (s.1, s.2.1, o.1)) = [] := by
      rw [List.filterMap_eq_nil_iff]
      intro s hs
      rw [hnone s hs]; rfl
    have e2 : (cellSpecs universal tlist [g]).map (fun s => ((outcome n est s).map Prod.snd).getD (List.replicate n 0)) =
        List.replicate w (List.replicate n 0) := by
      rw [← hlen, List.eq_replicate_iff]
      refine ⟨by rw [List.length_map], ?_⟩
      intro b hb
      obtain ⟨s, hs, rfl⟩ := List.mem_map.1 hb
      rw [hnone s hs]; rfl
    rw [e1, e2, List.nil_append, ha, if_neg (by rw [← ha]; exact h0)]
    have hown : (cellSpecs universal tlist (a :: as)).length = atts.length := by
      have : own.length = (List.filterMap (fun s => (outcome n est s).map Prod.snd) (cellSpecs universal tlist (a :: as))).length := by
        rw [← hal]
      rw [← hl, this]
      clear * - hall
      generalize cellSpecs universal tlist (a :: as) = specs at hall
      induction specs with
      | nil => rfl
      | cons s l ih =>
        obtain ⟨o, ho⟩ := Option.isSome_iff_exists.1 (hall s (List.mem_cons_self ..))
        rw [List.filterMap_cons_some (b := o.2) (by rw [ho]; rfl), List.length_cons, List.length_cons,
          ← ih fun q hq => hall q (List.mem_cons_of_mem _ hq)]
    rw [Option.some.injEq, Prod.mk.injEq]
    refine ⟨rfl, ?_⟩
    rw [List.take_append, List.length_replicate, List.take_of_length_le (by rw [List.length_replicate, ← hown]; exact hge), ← ho,
      List.length_take, List.length_map, hown, min_self, List.take_take]
    congr 2
    omega

/-- An estimator for the examples: estimate and influence column name the cell. -/
def exEst : ℤ → ℤ → ℤ → Option (ℤ × List ℤ) := fun g t p => some (100 * g + 10 * t + p, [g, t])

/-- The hypotheses are met by cohorts 1, 2, 3 over periods 1 to 3; the first two estimates have zero columns, the others those of the
cohort before. -/
example : (∀ t ∈ ([1, 2, 3] : List ℤ), 1 ≤ t) ∧ 0 < width false [1, 2, 3] ∧
    (∀ s ∈ cellSpecs false [1, 2, 3] [2, 3], (outcome 2 exEst s).isSome) ∧
    result 2 exEst false [1, 2, 3] [1, 2, 3] =
      some ([(2, 2, 221), (2, 3, 231), (3, 2, 321), (3, 3, 332)], [[0, 0], [0, 0], [2, 2], [2, 3]]) := by decide +kernel

/-! ### Two-period data -/

lemma range_width_two (universal : Bool) (t1 t2 : ℤ) : width universal [t1, t2] = if universal then 2 else 1 := by
  unfold width; cases universal <;> rfl

/-- **C276 (two periods, treated in between).** On periods `t1 < t2` with one treated cohort first treated after `t1` and by `t2`, the
only estimate is that of the cohort at `t2` from base `t1`; with the universal base period a zero for `t1` precedes it. -/
theorem C276_two_periods {K : Type*} [Zero K] (n : ℕ) (est : ℤ → ℤ → ℤ → Option (K × List K)) (universal : Bool) (t1 t2 b : ℤ)
    (h1 : t1 < b) (h2 : b ≤ t2) (a : K) (f : List K) (he : est b t2 t1 = some (a, f)) :
    DddDriver.computeCells universal [t1, t2] [b] = [(b, t2, t1)] ∧
    result n est universal [t1, t2] [b] =
      some (if universal then ([(b, t1, 0), (b, t2, a)], [List.replicate n 0, f]) else ([(b, t2, a)], [f])) := by
  have p : Triple.lastPre [t1, t2] b = some t1 := by
    simp [Triple.lastPre, List.filter_cons, h1, not_lt.2 h2]
  have n1 : ¬ b ≤ t1 := not_le.2 h1
  have n2 : ¬ t1 = t2 := by omega
  rw [← C276_computed_cells]
  cases universal with
  | false =>
    have hs : cellSpecs false [t1, t2] [b] = [(b, t2, .compute t1)] := by
      simp [cellSpecs, width, actionOf, Triple.basePeriod, p, h2]
    unfold result
    rw [hs]
    simp [outcome, he]
  | true =>
    have hs : cellSpecs true [t1, t2] [b] = [(b, t1, .zero), (b, t2, .compute t1)] := by
      simp [cellSpecs, width, actionOf, Triple.basePeriod, p, h2, n1, n2, List.range_succ]
    unfold result
    rw [hs]
    simp [outcome, he]

example : (1 : ℤ) < 2 ∧ (2 : ℤ) ≤ 2 ∧ exEst 2 2 1 = some (221, [2, 2]) := by decide

/-- **C276 (violated: treated before the first period).** On two-period data with one treated cohort already treated in the first period
the distributed `ddd` raises, whatever the estimator. -/
theorem C276_early_violated {K : Type*} [Zero K] (n : ℕ) (est : ℤ → ℤ → ℤ → Option (K × List K)) (universal : Bool) (t1 t2 b : ℤ)
    (h12 : t1 < t2) (h : b ≤ t1) : result n est universal [t1, t2] [b] = none := by
  have hearly : ∀ s ∈ ([t1, t2] : List ℤ), b ≤ s := by
    intro s hs
    simp only [List.mem_cons, List.not_mem_nil, or_false] at hs
    omega
  unfold result
  dsimp only
  rw [if_pos]
  rw [List.filterMap_eq_nil_iff]
  intro s hs
  unfold outcome
  rw [early_cells universal _ b hearly s hs]
  rfl

/-- **C276 (violated: treated after the second period).** With one cohort treated after both periods, the distributed `ddd` reports, for
the varying base period, the change from `t1` to `t2`, for the universal one the change from `t2` to `t1`: the cell has the later period
as base. -/
theorem C276_late_violated {K : Type*} [Zero K] (n : ℕ) (est : ℤ → ℤ → ℤ → Option (K × List K)) (t1 t2 b : ℤ) (h12 : t1 < t2)
    (h : t2 < b) :
    DddDriver.computeCells false [t1, t2] [b] = [(b, t2, t1)] ∧ DddDriver.computeCells true [t1, t2] [b] = [(b, t1, t2)] ∧
    ∀ a f, est b t1 t2 = some (a, f) →
      result n est true [t1, t2] [b] = some ([(b, t1, a), (b, t2, 0)], [f, List.replicate n 0]) := by
  have p : Triple.lastPre [t1, t2] b = some t2 := by
    have : t1 < b := by omega
    simp [Triple.lastPre, List.filter_cons, this, h]
  have n1 : ¬ b ≤ t1 := by omega
  have n2 : ¬ b ≤ t2 := by omega
  have n3 : ¬ t2 = t1 := by omega
  have hf : cellSpecs false [t1, t2] [b] = [(b, t2, .compute t1)] := by
    simp [cellSpecs, width, actionOf, Triple.basePeriod, p, n2]
  have ht : cellSpecs true [t1, t2] [b] = [(b, t1, .compute t2), (b, t2, .zero)] := by
    simp [cellSpecs, width, actionOf, Triple.basePeriod, p, n1, n2, n3, List.range_succ]
  refine ⟨by rw [← C276_computed_cells, hf]; rfl, by rw [← C276_computed_cells, ht]; rfl, ?_⟩
  intro a f he
  unfold result
  rw [ht]
  simp [outcome, he]

example : DddDriver.computeCells true [1, 2] [3] = [(3, 1, 2)] := (C276_late_violated 1 exEst 1 2 3 (by decide) (by decide)).2.1

/-- Two periods 1 and 2, a cohort coded 1 and never-treated units, four units. -/
def exEarly : List (Triple.Row ℚ) :=
  [⟨1, 1, some 1, true, 1⟩, ⟨1, 2, some 1, true, 9⟩, ⟨2, 1, some 1, false, 1⟩, ⟨2, 2, some 1, false, 2⟩,
   ⟨3, 1, some 0, true, 1⟩, ⟨3, 2, some 0, true, 2⟩, ⟨4, 1, some 0, false, 1⟩, ⟨4, 2, some 0, false, 2⟩]

/-- **C276 (violated: single machine and cluster differ).** For these data `ddd()` on a single machine hands four units to the two-period
estimator, while the distributed `ddd` raises for every estimator. -/
theorem C276_two_period_routes_violated :
    (∃ o : Triple.Entry.Opts ℚ, Triple.Entry.route o exEarly = some .twoPanel) ∧
    (Triple.Entry.twoPanelRows exEarly).map List.length = some 4 ∧
    ∀ (n : ℕ) (est : ℤ → ℤ → ℤ → Option (ℚ × List ℚ)) (universal : Bool),
      result n est universal (Triple.tlistOf exEarly) (DddDriver.glistD (exEarly.map Triple.Row.g)) = none := by
  refine ⟨⟨{ panel := true, useId := true, alpha := 1/20, trim := 199/200 }, by decide +kernel⟩, by decide +kernel, ?_⟩
  intro n est universal
  have e1 : Triple.tlistOf exEarly = [1, 2] := by decide +kernel
  have e2 : DddDriver.glistD (exEarly.map Triple.Row.g) = [1] := by decide +kernel
  rw [e1, e2]
  exact C276_early_violated n est universal 1 2 1 (by decide) (by decide)

end Verif.Dist.DddCells
