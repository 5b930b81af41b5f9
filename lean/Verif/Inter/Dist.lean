import Verif.Inter.Normalise
import Verif.Inter.VarProps

/-!
# Distributed `did_multiplegt`, one horizon: C184-C186

`moderndid/distributed/_didinter_partition.py:97-432, 1452-1475` and the driver
`moderndid/dask/_didinter_mp.py:471-616` (the Spark driver submits the same functions).  The frame is the one the
single-machine model of `Verif.Inter.Horizon` receives; `part` tells the partition that holds a unit (the data are shuffled
on the unit column, so a unit is never split), `ks` is the list of partitions that are left after the empty ones are
dropped (`_didinter_mp.py:245-247`).  Outcome changes are a parameter `D`, as in `Verif.Inter.VarModel`.  NaN is `none`; a
dictionary is a function to `Option`.  No covariates here.
-/

set_option linter.unusedSectionVars false
set_option linter.unusedSimpArgs false

namespace Verif.Inter

open Finset

variable {ι β κ K : Type*} [Fintype ι] [DecidableEq ι] [DecidableEq β] [DecidableEq κ] [Field K] [LinearOrder K]

section
variable (P : Frame ι β K) (o : Opt K) (h : ℕ) (D : P.Row → Option K) (part : ι → κ) (ks : List κ)

/-- `cond_expr`, `_didinter_partition.py:184-189`: no condition on the controls yet. -/
def rawEvent (r : P.Row) : Bool :=
  decide (((P.time r : ℤ) + 1 : WithTop ℤ) = P.F r.1 + (h : ℤ)) && decide ((h : ℤ) ≤ P.L r.1)
    && sameOk P o r.1 && dirOk o (P.S r.1)

/-- `dist_raw_h`, lines 191-192. -/
def distRaw (r : P.Row) : Option K := (D r).map fun _ => if rawEvent P o h r then 1 else 0

/-- `dist_w_h` when the group sums and the scalars are taken, lines 194-195. -/
def distWRaw (r : P.Row) : K := if swMask P o r.1 then (distRaw P o h D r).getD 0 * P.w r.1 r.2 else 0

/-- `never_change_w_h`, lines 156-166. -/
def neverWD (r : P.Row) : K := ((neverD P o D r).map fun c => c * P.w r.1 r.2).getD 0

/-- The rows a partition holds. -/
def rowsIn (k : κ) : Finset P.Row := univ.filter fun r => part r.1 = k

/-- The key of a group sum: period, `d_sq` and the trend columns, lines 209-214. -/
def keyOf (r : P.Row) : ℤ × β := (P.time r, P.cell r.1)

/-- `{key: {"n_control": ..., "n_treated": ...}}`. -/
abbrev Sums (β K : Type*) := ℤ × β → Option (K × K)

/-- `partition_group_sums`, lines 202-226. -/
def partSums (k : κ) : Sums β K := fun key =>
  if ((rowsIn P part k).filter fun r => keyOf P r = key).card = 0 then none
  else some (∑ r ∈ (rowsIn P part k).filter (fun r => keyOf P r = key), neverWD P o D r,
    ∑ r ∈ (rowsIn P part k).filter (fun r => keyOf P r = key), distWRaw P o h D r)

/-- `reduce_group_sums`, lines 229-240. -/
def mergeSums (a b : Sums β K) : Sums β K := fun key =>
  match a key, b key with
  | some x, some y => some (x.1 + y.1, x.2 + y.2)
  | some x, none => some x
  | none, y => y

/-- `functools.reduce(f, l) if l else start`, `_didinter_mp.py:505-510`. -/
def reduceOr {α : Type*} (f : α → α → α) (start : α) : List α → α
  | [] => start
  | a :: l => l.foldl f a

/-- `global_group_sums`, `_didinter_mp.py:505`. -/
def globalSums : Sums β K := reduceOr mergeSums (fun _ => none) (ks.map (partSums P o h D part))

/-- `partition_global_scalars`, `_didinter_partition.py:243-259`. -/
def partScalars (k : κ) : K × Finset ι :=
  (∑ r ∈ rowsIn P part k, distWRaw P o h D r,
    ((rowsIn P part k).filter fun r => distRaw P o h D r = some 1 ∧ swMask P o r.1 = true).image Sigma.fst)

/-- `reduce_global_scalars`, lines 262-267. -/
def mergeScalars (a b : K × Finset ι) : K × Finset ι := (a.1 + b.1, a.2 ∪ b.2)

/-- `global_scalars`, `_didinter_mp.py:506-510`. -/
def globalScalars : K × Finset ι := reduceOr mergeScalars (0, ∅) (ks.map (partScalars P o h D part))

/-- `n_control_h` as a partition sees it, `_didinter_partition.py:296-321`. -/
def nControlS (r : P.Row) : K := ((globalSums P o h D part ks (keyOf P r)).map Prod.fst).getD 0

/-- `n_treated_h` as a partition sees it, lines 296-321. -/
def nTreatedS (r : P.Row) : K := ((globalSums P o h D part ks (keyOf P r)).map Prod.snd).getD 0

/-- `dist_h`, lines 323-326. -/
def distS (r : P.Row) : Option K :=
  (distRaw P o h D r).map fun x => if 0 < nControlS P o h D part ks r then x else 0

/-- `inf_temp_h`, lines 373-380; `N` is `n_groups`. -/
def infTempS (N : K) (r : P.Row) : K :=
  N / max (globalScalars P o h D part ks).1 o.eps * P.w r.1 r.2
    * ((distS P o h D part ks r).getD 0 - nTreatedS P o h D part ks r
        / (if nControlS P o h D part ks r = 0 then 1 else nControlS P o h D part ks r) * (neverD P o D r).getD 0)
    * (D r).getD 0

/-- `inf_by_unit`, lines 382-386: `bincount` of one partition, in which the whole unit lies. -/
def unitInfS (N : K) (i : ι) : K := ∑ k : Fin (P.n i), infTempS P o h D part ks N ⟨i, k⟩

/-- `partial_sum`, line 394: the sum over the first rows of the partition's units. -/
def partialS (N : K) (k : κ) : K := ∑ i ∈ univ.filter (fun i => part i = k), unitInfS P o h D part ks N i

/-- The horizon's estimate before normalisation, `_didinter_mp.py:512-550`; `none` is NaN. -/
def estimateS (N : K) : Option K :=
  if (globalScalars P o h D part ks).2.card = 0 then none
  else some ((ks.map (partialS P o h D part ks N)).sum / N)

/-- `n_switchers` of the horizon, `_didinter_mp.py:513, 674`. -/
def nSwitchersS : ℕ := (globalScalars P o h D part ks).2.card

end

/-! ## Reductions do not depend on the partitioning -/

theorem reduceOr_additive {α M : Type*} [AddCommMonoid M] (f : α → α → α) (start : α) (g : α → M)
    (h0 : g start = 0) (hf : ∀ a b, g (f a b) = g a + g b) : ∀ l : List α, g (reduceOr f start l) = (l.map g).sum
  | [] => by simpa [reduceOr] using h0
  | a :: l => by
    have key : ∀ (l : List α) (a : α), g (l.foldl f a) = g a + (l.map g).sum := by
      intro l
      induction l with
      | nil => intro a; simp
      | cons b l ih => intro a; rw [List.foldl_cons, ih, hf, List.map_cons, List.sum_cons, add_assoc]
    show g (l.foldl f a) = _
    rw [key, List.map_cons, List.sum_cons]

theorem sum_parts {α M : Type*} [DecidableEq α] [AddCommMonoid M] (s : Finset α) (c : α → κ) (f : α → M) : ∀ ks : List κ, ks.Nodup →
    (ks.map fun k => ∑ r ∈ s.filter (fun r => c r = k), f r).sum = ∑ r ∈ s.filter (fun r => c r ∈ ks), f r
  | [], _ => by simp
  | k :: ks, hn => by
    rw [List.map_cons, List.sum_cons, sum_parts s c f ks (List.nodup_cons.1 hn).2]
    have hd : Disjoint (s.filter fun r => c r = k) (s.filter fun r => c r ∈ ks) := by
      rw [disjoint_filter]
      intro r _ e1 e2
      exact (List.nodup_cons.1 hn).1 (e1 ▸ e2)
    rw [← sum_union hd]
    refine sum_congr ?_ fun _ _ => rfl
    ext r
    simp only [mem_union, mem_filter, List.mem_cons]
    tauto

theorem sum_all_parts {α M : Type*} [DecidableEq α] [AddCommMonoid M] (s : Finset α) (c : α → κ) (f : α → M) (ks : List κ) (hn : ks.Nodup)
    (hc : ∀ r ∈ s, c r ∈ ks) : (ks.map fun k => ∑ r ∈ s.filter (fun r => c r = k), f r).sum = ∑ r ∈ s, f r := by
  rw [sum_parts s c f ks hn]
  refine sum_congr ?_ fun _ _ => rfl
  ext r
  simp only [mem_filter, and_iff_left_iff_imp]
  exact hc r

section
variable (P : Frame ι β K) (o : Opt K) (h : ℕ) (D : P.Row → Option K) (part : ι → κ) (ks : List κ)
variable (hn : ks.Nodup) (hc : ∀ r : P.Row, part r.1 ∈ ks)

theorem peers_key (r : P.Row) : (univ.filter fun s => keyOf P s = keyOf P r) = peers P r := by
  unfold peers keyOf
  ext s
  simp only [mem_filter, mem_univ, true_and, Prod.mk.injEq]

theorem fst_partSums (key : ℤ × β) (k : κ) : ((partSums P o h D part k key).map Prod.fst).getD 0 =
    ∑ r ∈ (univ.filter fun r => keyOf P r = key).filter (fun r => part r.1 = k), neverWD P o D r := by
  unfold partSums rowsIn
  rw [filter_comm]
  split
  · rename_i e
    rw [card_eq_zero.1 e]
    simp
  · simp

theorem snd_partSums (key : ℤ × β) (k : κ) : ((partSums P o h D part k key).map Prod.snd).getD 0 =
    ∑ r ∈ (univ.filter fun r => keyOf P r = key).filter (fun r => part r.1 = k), distWRaw P o h D r := by
  unfold partSums rowsIn
  rw [filter_comm]
  split
  · rename_i e
    rw [card_eq_zero.1 e]
    simp
  · simp

include hn hc in
theorem nControlS_eq (r : P.Row) : nControlS P o h D part ks r = nControlD P o D r := by
  have := reduceOr_additive (M := K) (mergeSums (β := β) (K := K)) (fun _ => none)
    (fun a => ((a (keyOf P r)).map Prod.fst).getD 0) (by simp)
    (by intro a b; unfold mergeSums; cases a (keyOf P r) <;> cases b (keyOf P r) <;> simp)
    (ks.map (partSums P o h D part))
  unfold nControlS globalSums
  rw [this, List.map_map]
  simp only [Function.comp_def, fst_partSums]
  rw [sum_all_parts _ (fun r : P.Row => part r.1) _ ks hn (fun r _ => hc r), peers_key]
  rfl

include hn hc in
theorem nTreatedS_eq (r : P.Row) : nTreatedS P o h D part ks r = ∑ s ∈ peers P r, distWRaw P o h D s := by
  have := reduceOr_additive (M := K) (mergeSums (β := β) (K := K)) (fun _ => none)
    (fun a => ((a (keyOf P r)).map Prod.snd).getD 0) (by simp)
    (by intro a b; unfold mergeSums; cases a (keyOf P r) <;> cases b (keyOf P r) <;> simp)
    (ks.map (partSums P o h D part))
  unfold nTreatedS globalSums
  rw [this, List.map_map]
  simp only [Function.comp_def, snd_partSums]
  rw [sum_all_parts _ (fun r : P.Row => part r.1) _ ks hn (fun r _ => hc r), peers_key]

include hn hc in
theorem scalars_fst : (globalScalars P o h D part ks).1 = ∑ r : P.Row, distWRaw P o h D r := by
  have := reduceOr_additive (M := K) (mergeScalars (ι := ι) (K := K)) (0, ∅) Prod.fst rfl (fun _ _ => rfl)
    (ks.map (partScalars P o h D part))
  unfold globalScalars
  rw [this, List.map_map]
  simp only [Function.comp_def, partScalars, rowsIn]
  exact sum_all_parts univ (fun r : P.Row => part r.1) _ ks hn (fun r _ => hc r)

include hc in
theorem mem_scalars (i : ι) : i ∈ (globalScalars P o h D part ks).2 ↔
    ∃ k : Fin (P.n i), distRaw P o h D ⟨i, k⟩ = some 1 ∧ swMask P o i = true := by
  have key : ∀ l : List (K × Finset ι), i ∈ (reduceOr mergeScalars ((0 : K), (∅ : Finset ι)) l).2 ↔ ∃ a ∈ l, i ∈ a.2 := by
    intro l
    cases l with
    | nil => simp [reduceOr]
    | cons a l =>
      show i ∈ (l.foldl mergeScalars a).2 ↔ _
      induction l generalizing a with
      | nil => simp
      | cons b l ih =>
        rw [List.foldl_cons, ih]
        simp only [List.mem_cons, exists_eq_or_imp, mergeScalars, mem_union, or_assoc]
  unfold globalScalars
  rw [key]
  simp only [List.mem_map, partScalars, rowsIn, exists_exists_and_eq_and, mem_image, mem_filter, mem_univ, true_and]
  constructor
  · rintro ⟨k, _, r, ⟨_, h1, h2⟩, rfl⟩
    exact ⟨r.2, h1, h2⟩
  · rintro ⟨k, h1, h2⟩
    exact ⟨part i, hc ⟨i, k⟩, ⟨i, k⟩, ⟨rfl, h1, h2⟩, rfl⟩

end

/-! ## C184: the estimate -/

/-- Rows at which a unit is `h` periods past its switch with an observed outcome change, whether or not it has controls. -/
def candidateRows (P : Frame ι β K) (o : Opt K) (pl : Bool) (h : ℕ) : Finset P.Row :=
  univ.filter fun r => P.F r.1 = ((P.time r - h + 1 : ℤ) : WithTop ℤ) ∧ (h : ℤ) ≤ P.L r.1 ∧ Admitted o.dir (P.S r.1) ∧
    sameOk P o r.1 = true ∧ P.diff pl h r ≠ none

theorem mem_candidateRows (P : Frame ι β K) (o : Opt K) (pl : Bool) (h : ℕ) (r : P.Row) :
    r ∈ candidateRows P o pl h ↔ rawEvent P o h r = true ∧ P.diff pl h r ≠ none := by
  unfold candidateRows rawEvent
  simp only [mem_filter, mem_univ, true_and, Bool.and_eq_true, decide_eq_true_iff, withTop_event, dirOk_iff]
  tauto

theorem switcher_candidate (P : Frame ι β K) (o : Opt K) (pl : Bool) (h : ℕ) (r : P.Row) :
    r ∈ switcherRows P o pl h ↔ r ∈ candidateRows P o pl h ∧ 0 < ∑ s ∈ controls P o pl h r, P.w s.1 s.2 := by
  unfold switcherRows candidateRows
  simp only [mem_filter, mem_univ, true_and]
  tauto

theorem swMask_of_raw {P : Frame ι β K} {o : Opt K} {h : ℕ} {r : P.Row} (e : rawEvent P o h r = true) :
    swMask P o r.1 = true := by
  unfold rawEvent at e
  simp only [Bool.and_eq_true] at e
  unfold swMask
  rw [e.2, e.1.2]; rfl

theorem distRaw_one_iff (P : Frame ι β K) (o : Opt K) (pl : Bool) (h : ℕ) (r : P.Row) :
    distRaw P o h (P.diff pl h) r = some 1 ↔ r ∈ candidateRows P o pl h := by
  rw [mem_candidateRows]
  unfold distRaw
  cases P.diff pl h r with
  | none => simp
  | some x => by_cases e : rawEvent P o h r = true <;> simp [e]

theorem distWRaw_eq (P : Frame ι β K) (o : Opt K) (pl : Bool) (h : ℕ) (r : P.Row) :
    distWRaw P o h (P.diff pl h) r = if r ∈ candidateRows P o pl h then P.w r.1 r.2 else 0 := by
  simp only [mem_candidateRows P o pl h r]
  unfold distWRaw distRaw
  by_cases e : rawEvent P o h r = true
  · rw [if_pos (swMask_of_raw e)]
    cases P.diff pl h r <;> simp [e]
  · cases P.diff pl h r <;> simp [e]

section
variable (P : Frame ι β K) (o : Opt K) (h : ℕ) (pl : Bool) (part : ι → κ) (ks : List κ)
variable (hn : ks.Nodup) (hc : ∀ r : P.Row, part r.1 ∈ ks)

theorem isEventD_raw (D : P.Row → Option K) (r : P.Row) :
    isEventD P o h D r = (rawEvent P o h r && decide (0 < nControlD P o D r)) := by
  unfold isEventD rawEvent
  cases decide (0 < nControlD P o D r) <;> simp

include hn hc in
theorem distS_eq (D : P.Row → Option K) (r : P.Row) : distS P o h D part ks r = distD P o h D r := by
  unfold distS distRaw distD
  rw [nControlS_eq P o h D part ks hn hc, isEventD_raw]
  cases D r with
  | none => rfl
  | some x =>
    by_cases e : rawEvent P o h r = true <;> by_cases e' : 0 < nControlD P o D r <;> simp [e, e']

include hn hc in
theorem weight_scalars : (globalScalars P o h (P.diff pl h) part ks).1 = ∑ r ∈ candidateRows P o pl h, P.w r.1 r.2 := by
  rw [scalars_fst P o h _ part ks hn hc]
  simp only [distWRaw_eq]
  rw [← sum_filter]
  refine sum_congr ?_ fun _ _ => rfl
  ext r; simp

include hc in
theorem switchers_scalars : (globalScalars P o h (P.diff pl h) part ks).2 = (candidateRows P o pl h).image Sigma.fst := by
  ext i
  rw [mem_scalars P o h _ part ks hc]
  simp only [distRaw_one_iff, mem_image]
  constructor
  · rintro ⟨k, h1, _⟩; exact ⟨⟨i, k⟩, h1, rfl⟩
  · rintro ⟨r, h1, rfl⟩
    exact ⟨r.2, h1, swMask_of_raw ((mem_candidateRows P o pl h r).1 h1).1⟩

variable [IsStrictOrderedRing K]

theorem nControl_nonneg (hw : ∀ r : P.Row, 0 ≤ P.w r.1 r.2) (r : P.Row) : 0 ≤ nControl P o pl h r := by
  rw [nControl_eq]
  exact sum_nonneg fun s _ => hw s

/-- The bracket of `inf_temp` is the one of the single-machine code. -/
theorem core_eq (hw : ∀ r : P.Row, 0 ≤ P.w r.1 r.2) (r : P.Row) :
    P.w r.1 r.2 * ((dist P o pl h r).getD 0 - (∑ s ∈ peers P r, distWRaw P o h (P.diff pl h) s)
        / (if nControl P o pl h r = 0 then 1 else nControl P o pl h r) * (never P o pl h r).getD 0) =
    P.w r.1 r.2 * ((dist P o pl h r).getD 0 - nTreated P o pl h r
        / (if nControl P o pl h r = 0 then 1 else nControl P o pl h r) * (never P o pl h r).getD 0) := by
  by_cases e : nControl P o pl h r = 0
  · have hz : P.w r.1 r.2 * (never P o pl h r).getD 0 = 0 := by
      rw [nControl_eq] at e
      by_cases hx : r ∈ controls P o pl h r
      · rw [(sum_eq_zero_iff_of_nonneg fun s _ => hw s).1 e r hx, zero_mul]
      · have : (never P o pl h r).getD 0 = 0 := by
          unfold never
          cases hd : P.diff pl h r with
          | none => simp
          | some x =>
            simp only [Option.map_some, Option.getD_some, ite_eq_right_iff, one_ne_zero, imp_false]
            intro hcon
            apply hx
            have := (isControl_iff P o r).1 hcon
            unfold controls
            simp only [mem_filter, mem_univ, true_and, ne_eq]
            exact ⟨this.1, this.2, by rw [hd]; simp⟩
        rw [this, mul_zero]
    rw [mul_sub, mul_sub, ← mul_assoc, mul_comm (P.w r.1 r.2) (_ / _), mul_assoc, hz, mul_zero,
      ← mul_assoc, mul_comm (P.w r.1 r.2) (_ / _), mul_assoc, hz, mul_zero]
  · have hpos : 0 < nControl P o pl h r := lt_of_le_of_ne (nControl_nonneg P o h pl hw r) (Ne.symm e)
    have : ∑ s ∈ peers P r, distWRaw P o h (P.diff pl h) s = nTreated P o pl h r := by
      unfold nTreated
      refine sum_congr rfl fun s hs => ?_
      rw [distWRaw_eq, distW_eq]
      have : r ∈ peers P s := peers_symm.1 hs
      have hp : 0 < ∑ x ∈ controls P o pl h s, P.w x.1 x.2 := by
        rw [← nControl_eq, nControl_congr hs]; exact hpos
      simp only [switcher_candidate P o pl h s, hp, and_true]
    rw [this]

include hn hc in
theorem sum_infTempS (hw : ∀ r : P.Row, 0 ≤ P.w r.1 r.2) (heps : 0 < o.eps) (hι : (Fintype.card ι : K) ≠ 0) (N : K) :
    ∑ r : P.Row, infTempS P o h (P.diff pl h) part ks N r =
      N / max (∑ r ∈ candidateRows P o pl h, P.w r.1 r.2) o.eps *
        ∑ r ∈ switcherRows P o pl h, P.w r.1 r.2 * rowDid P o pl h r := by
  have hm : max (nSwW P o pl h) o.eps ≠ 0 := (lt_max_of_lt_right heps).ne'
  have hcore : ∀ r : P.Row, infTempS P o h (P.diff pl h) part ks N r =
      N / max (∑ r ∈ candidateRows P o pl h, P.w r.1 r.2) o.eps *
        (max (nSwW P o pl h) o.eps / Fintype.card ι) * infTemp P o pl h r := by
    intro r
    unfold infTempS
    rw [weight_scalars P o h pl part ks hn hc, distS_eq P o h part ks hn hc, nControlS_eq P o h _ part ks hn hc,
      nTreatedS_eq P o h _ part ks hn hc]
    show N / _ * P.w r.1 r.2 * ((dist P o pl h r).getD 0 - _ / (if nControl P o pl h r = 0 then 1 else nControl P o pl h r)
      * (never P o pl h r).getD 0) * _ = _
    rw [mul_assoc (N / _), core_eq P o h pl hw r]
    unfold infTemp
    have hd : dist P o pl h r = (P.diff pl h r).map fun _ => if isEvent P o pl h r then 1 else 0 := rfl
    cases hx : P.diff pl h r with
    | none => rw [hx] at hd; simp [hd]
    | some x =>
      rw [hx] at hd
      rw [hd]
      simp only [Option.map_some, Option.getD_some]
      field_simp
  simp only [hcore]
  rw [← mul_sum, sum_infTemp]
  field_simp

include hn hc in
theorem total_eq (N : K) : (ks.map (partialS P o h (P.diff pl h) part ks N)).sum =
    ∑ r : P.Row, infTempS P o h (P.diff pl h) part ks N r := by
  have h1 : ∀ k, partialS P o h (P.diff pl h) part ks N k =
      ∑ r ∈ (univ : Finset P.Row).filter (fun r => part r.1 = k), infTempS P o h (P.diff pl h) part ks N r := by
    intro k
    unfold partialS unitInfS
    rw [sum_filter, sum_filter, Fintype.sum_sigma]
    refine sum_congr rfl fun i _ => ?_
    split <;> simp_all
  rw [funext h1]
  exact sum_all_parts univ (fun r : P.Row => part r.1) _ ks hn (fun r _ => hc r)

include hn hc in
/-- C184.  However the units are spread over the partitions, and whatever `n_groups` is, the distributed estimate of a horizon
is the sum of the switchers' differences-in-differences divided by the weight of all rows `h` periods past a switch, those
without controls included; it is NaN only when there is no such row. -/
theorem C184_estimate (hw : ∀ r : P.Row, 0 ≤ P.w r.1 r.2) (heps : 0 < o.eps) (N : K) (hN : N ≠ 0) :
    estimateS P o h (P.diff pl h) part ks N =
      if candidateRows P o pl h = ∅ then none
      else some ((∑ r ∈ switcherRows P o pl h, P.w r.1 r.2 * rowDid P o pl h r) /
        max (∑ r ∈ candidateRows P o pl h, P.w r.1 r.2) o.eps) := by
  unfold estimateS
  rw [switchers_scalars P o h pl part ks hc, total_eq P o h pl part ks hn hc]
  by_cases e : candidateRows P o pl h = ∅
  · rw [if_pos e, e]; simp
  · have hne : ((candidateRows P o pl h).image Sigma.fst).card ≠ 0 := by
      rw [Ne, card_eq_zero, image_eq_empty]; exact e
    rw [if_neg e, if_neg hne]
    obtain ⟨r, _⟩ := nonempty_iff_ne_empty.2 e
    have hι : (Fintype.card ι : K) ≠ 0 := by
      have : 0 < Fintype.card ι := Fintype.card_pos_iff.2 ⟨r.1⟩
      exact_mod_cast this.ne'
    rw [sum_infTempS P o h pl part ks hn hc hw heps hι]
    congr 1
    have hm : max (∑ r ∈ candidateRows P o pl h, P.w r.1 r.2) o.eps ≠ 0 := (lt_max_of_lt_right heps).ne'
    field_simp

include hn hc in
/-- C184.  When every switcher observed at the horizon has controls, the distributed estimate is the single-machine one. -/
theorem C184_equal (hw : ∀ r : P.Row, 0 ≤ P.w r.1 r.2) (heps : 0 < o.eps) (N : K) (hN : N ≠ 0)
    (hctl : ∀ r ∈ candidateRows P o pl h, 0 < ∑ s ∈ controls P o pl h r, P.w s.1 s.2) :
    estimateS P o h (P.diff pl h) part ks N = estimate P o pl h := by
  have hEq : candidateRows P o pl h = switcherRows P o pl h := by
    ext r
    rw [switcher_candidate]
    exact ⟨fun e => ⟨e, hctl r e⟩, fun e => e.1⟩
  rw [C184_estimate P o h pl part ks hn hc hw heps N hN, hEq]
  unfold estimate
  simp only [usedUnits_empty]
  by_cases e : switcherRows P o pl h = ∅
  · rw [if_pos e, if_pos e]
  · rw [if_neg e, if_neg e, unitInf_sum, sum_infTemp, nSwW_eq]
    obtain ⟨r, _⟩ := nonempty_iff_ne_empty.2 e
    have hι : (Fintype.card ι : K) ≠ 0 := by
      have : 0 < Fintype.card ι := Fintype.card_pos_iff.2 ⟨r.1⟩
      exact_mod_cast this.ne'
    have hm : max (∑ r ∈ switcherRows P o pl h, P.w r.1 r.2) o.eps ≠ 0 := (lt_max_of_lt_right heps).ne'
    congr 1
    field_simp

include hn hc in
/-- C184 (violated: dilution).  In general the distributed estimate is the single-machine one times the share of the
switchers' weight that has controls. -/
theorem C184_dilution_violated (hw : ∀ r : P.Row, 0 ≤ P.w r.1 r.2) (heps : 0 < o.eps) (N : K) (hN : N ≠ 0) (a b : K)
    (ha : estimateS P o h (P.diff pl h) part ks N = some a) (hb : estimate P o pl h = some b) :
    a = b * (max (∑ r ∈ switcherRows P o pl h, P.w r.1 r.2) o.eps /
      max (∑ r ∈ candidateRows P o pl h, P.w r.1 r.2) o.eps) ∧
    ∑ r ∈ switcherRows P o pl h, P.w r.1 r.2 ≤ ∑ r ∈ candidateRows P o pl h, P.w r.1 r.2 := by
  have hsub : switcherRows P o pl h ⊆ candidateRows P o pl h := fun r hr => ((switcher_candidate P o pl h r).1 hr).1
  refine ⟨?_, sum_le_sum_of_subset_of_nonneg hsub fun r _ _ => hw r⟩
  rw [C184_estimate P o h pl part ks hn hc hw heps N hN] at ha
  unfold estimate at hb
  simp only [usedUnits_empty] at hb
  split at hb
  · cases hb
  · rename_i e
    have e' : candidateRows P o pl h ≠ ∅ := fun x => e (subset_empty.1 (x ▸ hsub))
    rw [if_neg e'] at ha
    rw [unitInf_sum, sum_infTemp, nSwW_eq] at hb
    obtain ⟨r, _⟩ := nonempty_iff_ne_empty.2 e
    have hι : (Fintype.card ι : K) ≠ 0 := by
      have : 0 < Fintype.card ι := Fintype.card_pos_iff.2 ⟨r.1⟩
      exact_mod_cast this.ne'
    have hm : max (∑ r ∈ switcherRows P o pl h, P.w r.1 r.2) o.eps ≠ 0 := (lt_max_of_lt_right heps).ne'
    have hm' : max (∑ r ∈ candidateRows P o pl h, P.w r.1 r.2) o.eps ≠ 0 := (lt_max_of_lt_right heps).ne'
    rw [← Option.some.inj ha, ← Option.some.inj hb]
    field_simp

include hn hc in
/-- C184 (violated: 0 instead of NaN).  If switchers are observed at the horizon but none has controls, the single-machine code
reports NaN and the distributed code an effect of exactly 0. -/
theorem C184_zero_violated (hw : ∀ r : P.Row, 0 ≤ P.w r.1 r.2) (heps : 0 < o.eps) (N : K) (hN : N ≠ 0)
    (hne : candidateRows P o pl h ≠ ∅) (hno : ∀ r ∈ candidateRows P o pl h, controls P o pl h r = ∅) :
    estimateS P o h (P.diff pl h) part ks N = some 0 ∧ estimate P o pl h = none := by
  have e : switcherRows P o pl h = ∅ := by
    rw [eq_empty_iff_forall_notMem]
    intro r hr
    have := (switcher_candidate P o pl h r).1 hr
    rw [hno r this.1] at this
    simp at this
  refine ⟨?_, ?_⟩
  · rw [C184_estimate P o h pl part ks hn hc hw heps N hN, if_neg hne, e]; simp
  · unfold estimate
    rw [if_pos ((usedUnits_empty ..).2 e)]

include hc in
/-- C184.  The reported number of switchers of a horizon is the number of units observed `h` periods past their switch, with or
without controls. -/
theorem C184_count : nSwitchersS P o h (P.diff pl h) part ks =
    (univ.filter fun i => ∃ k : Fin (P.n i), (⟨i, k⟩ : P.Row) ∈ candidateRows P o pl h).card := by
  unfold nSwitchersS
  rw [switchers_scalars P o h pl part ks hc]
  congr 1
  ext i
  simp only [mem_image, mem_filter, mem_univ, true_and]
  constructor
  · rintro ⟨r, h1, rfl⟩; exact ⟨r.2, h1⟩
  · rintro ⟨k, h1⟩; exact ⟨⟨i, k⟩, h1, rfl⟩

end

/-- Four units over periods 1..3: units 0 and 1 switch at 3, in baselines 0 and 1; units 2 and 3 never switch, in baselines 0 and 1,
but unit 3 has no outcome in period 3 (its weight is 0 there). -/
def exHole : Frame (Fin 4) ℕ ℚ where
  n := fun _ => 3
  t := fun _ k => 1 + k.1
  y := fun i k => if i = 3 ∧ k.1 = 2 then none else some (if i = 0 then ![1, 2, 7] k else if i = 1 then ![5, 5, 9] k else ![3, 4, 5] k)
  d := fun i k => some (if i.1 ≤ 1 ∧ k.1 = 2 then 1 else 0)
  w := fun i k => if i = 3 ∧ k.1 = 2 then 0 else 1
  F := ![((3 : ℤ) : WithTop ℤ), ((3 : ℤ) : WithTop ℤ), ⊤, ⊤]
  L := ![1, 1, 0, 0]
  S := ![1, 1, 0, 0]
  cell := ![0, 1, 0, 1]
  dsq := fun _ => 0

/-- Default options for `exHole`. -/
def exHoleOpt : Opt ℚ where
  onlyNever := false
  dir := .all
  same := false
  samePl := false
  effects := 1
  placebo := 0
  tmin := 1
  tmax := 3
  eps := 1 / 10

/-- Units 0 and 3 on one worker, 1 and 2 on the other. -/
def exHolePart : Fin 4 → Bool := ![true, false, false, true]

example : (∀ r : exHole.Row, 0 ≤ exHole.w r.1 r.2) ∧ (∀ r : exHole.Row, exHolePart r.1 ∈ [true, false]) ∧
    (candidateRows exHole exHoleOpt false 1).card = 2 ∧ (switcherRows exHole exHoleOpt false 1).card = 1 := by decide +kernel

/-- C184 (violated), concretely: the effect is 4 on one machine with 1 switcher, and 2 with 2 switchers on a cluster. -/
theorem C184_example_violated :
    estimate exHole exHoleOpt false 1 = some 4 ∧ (usedUnits exHole exHoleOpt false 1).card = 1 ∧
    estimateS exHole exHoleOpt 1 (exHole.diff false 1) exHolePart [true, false] 4 = some 2 ∧
    nSwitchersS exHole exHoleOpt 1 (exHole.diff false 1) exHolePart [true, false] = 2 := by decide +kernel

example : estimateS exB.frame (exB.opt (1 / 10)) 1 (exB.frame.diff false 1) (fun i => i.1 % 2) [1, 0] 9 = some (61 / 12) ∧
    (∀ r ∈ candidateRows exB.frame (exB.opt (1 / 10)) false 1,
      0 < ∑ s ∈ controls exB.frame (exB.opt (1 / 10)) false 1 r, exB.frame.w s.1 s.2) ∧
    (candidateRows exB.frame (exB.opt (1 / 10)) false 1).card = 2 := by decide +kernel

/-! ## C185: normalisation -/

section
variable (P : Frame ι β K) (o : Opt K) (h : ℕ) (D : P.Row → Option K) (part : ι → κ) (ks : List κ)

/-- `sw_map`, `_didinter_partition.py:1463-1470`, merged by `update` (`_didinter_mp.py:545`): the weight of the unit's last row
with `dist == 1`. -/
def swMap (i : ι) : Option K :=
  (((List.finRange (P.n i)).filter fun k => decide (distS P o h D part ks ⟨i, k⟩ = some 1)).getLast?).map (P.w i)

/-- The rows of a unit with `in_range`, `_didinter_partition.py:424`. -/
def inRange (i : ι) : Finset (Fin (P.n i)) :=
  univ.filter fun k => P.F i ≤ (P.t i k : WithTop ℤ) ∧ ((P.t i k : ℤ) + 1 : WithTop ℤ) ≤ P.F i + (h : ℤ)

/-- `treat_diff`, line 425: `np.sum` is NaN as soon as one term is. -/
def treatDiff (i : ι) : Option K :=
  if ∀ k ∈ inRange P h i, (P.d i k).isSome then some (∑ k ∈ inRange P h i, (((P.d i k).map fun x => x - P.dsq i).getD 0)) else none

/-- `contrib`, lines 427-428. -/
def contribS (i : ι) (w : K) : Option K := (treatDiff P h i).map fun x => w * (if P.S i = 1 then x else -x)

/-- The units of a partition that are in the map. -/
def mappedIn (k : κ) : Finset ι := univ.filter fun i => part i = k ∧ (swMap P o h D part ks i).isSome

/-- `partition_delta_d`, lines 399-432. -/
def partDelta (k : κ) : Option K × K :=
  (if ∀ i ∈ mappedIn P o h D part ks k, (treatDiff P h i).isSome then
      some (∑ i ∈ mappedIn P o h D part ks k, (contribS P h i ((swMap P o h D part ks i).getD 0)).getD 0) else none,
    ∑ i ∈ mappedIn P o h D part ks k, (swMap P o h D part ks i).getD 0)

/-- `delta_d`, `_didinter_mp.py:577-587`: `none` is `None`, `some none` is NaN. -/
def deltaS : Option (Option K) :=
  let W := (ks.map fun k => (partDelta P o h D part ks k).2).sum
  if 0 < W then
    some (if ∀ k ∈ ks, (partDelta P o h D part ks k).1.isSome then
      some ((ks.map fun k => (partDelta P o h D part ks k).1.getD 0).sum / W) else none)
  else none

/-- The reported estimate under `normalized=True`, `_didinter_mp.py:613-616`; `none` is NaN, and NaN is not 0. -/
def normalisedS (N : K) : Option K :=
  (estimateS P o h D part ks N).bind fun e =>
    match deltaS P o h D part ks with
    | none => some e
    | some none => none
    | some (some x) => if x = 0 then some e else some (e / x)

end

section
variable (P : Frame ι β K) (o : Opt K) (h : ℕ) (pl : Bool) (part : ι → κ) (ks : List κ)
variable (hn : ks.Nodup) (hc : ∀ r : P.Row, part r.1 ∈ ks)

theorem dose_treatDiff (i : ι) (x : K) (e : treatDiff P h i = some x) : doseSum P h i = x := by
  unfold treatDiff at e
  split at e
  · rw [← Option.some.inj e]
    unfold doseSum inRange
    rw [sum_filter]
  · cases e

variable (hinj : ∀ i, Function.Injective (P.t i))

include hinj in
theorem switcher_unique {i : ι} {k l : Fin (P.n i)} (hk : (⟨i, k⟩ : P.Row) ∈ switcherRows P o pl h)
    (hl : (⟨i, l⟩ : P.Row) ∈ switcherRows P o pl h) : k = l := by
  unfold switcherRows at hk hl
  have h1 := (mem_filter.1 hk).2.1
  have h2 := (mem_filter.1 hl).2.1
  rw [h1] at h2
  have h3 : P.t i k - h + 1 = P.t i l - h + 1 := WithTop.coe_injective h2
  exact hinj i (by omega)

include hn hc hinj in
theorem swMap_row (i : ι) (k : Fin (P.n i)) (hk : (⟨i, k⟩ : P.Row) ∈ switcherRows P o pl h) :
    swMap P o h (P.diff pl h) part ks i = some (P.w i k) := by
  unfold swMap
  have : ((List.finRange (P.n i)).filter fun k => decide (distS P o h (P.diff pl h) part ks ⟨i, k⟩ = some 1)) = [k] := by
    have h1 : (List.finRange (P.n i)).filter (fun l => decide (distS P o h (P.diff pl h) part ks ⟨i, l⟩ = some 1)) =
        (List.finRange (P.n i)).filter (fun l => l == k) := by
      refine List.filter_congr fun l _ => ?_
      rw [distS_eq P o h part ks hn hc]
      show decide (dist P o pl h ⟨i, l⟩ = some 1) = _
      rw [Bool.eq_iff_iff, decide_eq_true_iff, dist_one_iff, beq_iff_eq]
      exact ⟨fun e => switcher_unique P o h pl hinj e hk, fun e => e ▸ hk⟩
    rw [h1, List.filter_beq, List.count_eq_one_of_mem (List.nodup_finRange _) (List.mem_finRange _)]
    rfl
  rw [this]
  rfl

include hn hc in
theorem swMap_none (i : ι) (hk : ∀ k, (⟨i, k⟩ : P.Row) ∉ switcherRows P o pl h) :
    swMap P o h (P.diff pl h) part ks i = none := by
  unfold swMap
  have : ((List.finRange (P.n i)).filter fun k => decide (distS P o h (P.diff pl h) part ks ⟨i, k⟩ = some 1)) = [] := by
    rw [List.filter_eq_nil_iff]
    intro l _
    rw [distS_eq P o h part ks hn hc, decide_eq_true_iff]
    show ¬ dist P o pl h ⟨i, l⟩ = some 1
    rw [dist_one_iff]
    exact hk l
  rw [this]
  rfl

include hn hc hinj in
/-- Sums over the mapped units are sums over the switcher rows. -/
theorem sum_mapped (f : ι → K → K) : (ks.map fun k => ∑ i ∈ mappedIn P o h (P.diff pl h) part ks k,
      f i ((swMap P o h (P.diff pl h) part ks i).getD 0)).sum = ∑ r ∈ switcherRows P o pl h, f r.1 (P.w r.1 r.2) := by
  have h0 : ∀ i, (swMap P o h (P.diff pl h) part ks i).isSome = true ↔ ∃ k, (⟨i, k⟩ : P.Row) ∈ switcherRows P o pl h := by
    intro i
    constructor
    · intro e
      by_contra hcon
      push Not at hcon
      rw [swMap_none P o h pl part ks hn hc i hcon] at e
      cases e
    · rintro ⟨k, hk⟩
      rw [swMap_row P o h pl part ks hn hc hinj i k hk]; rfl
  have h1 : ∀ k, mappedIn P o h (P.diff pl h) part ks k =
      (univ.filter fun i => (swMap P o h (P.diff pl h) part ks i).isSome = true).filter (fun i => part i = k) := by
    intro k
    unfold mappedIn
    ext i
    simp only [mem_filter, mem_univ, true_and]
    tauto
  simp only [h1]
  rw [sum_all_parts _ part _ ks hn]
  · rw [sum_filter]
    have h2 : ∀ i, (if (swMap P o h (P.diff pl h) part ks i).isSome = true
        then f i ((swMap P o h (P.diff pl h) part ks i).getD 0) else 0) =
        ∑ k : Fin (P.n i), if (⟨i, k⟩ : P.Row) ∈ switcherRows P o pl h then f i (P.w i k) else 0 := by
      intro i
      by_cases e : ∃ k, (⟨i, k⟩ : P.Row) ∈ switcherRows P o pl h
      · obtain ⟨k, hk⟩ := e
        rw [if_pos ((h0 i).2 ⟨k, hk⟩), swMap_row P o h pl part ks hn hc hinj i k hk, Fintype.sum_eq_single k, if_pos hk]
        · rfl
        · intro l hl
          rw [if_neg]
          intro hl'
          exact hl (switcher_unique P o h pl hinj hl' hk)
      · rw [if_neg (fun x => e ((h0 i).1 x))]
        symm
        refine sum_eq_zero fun k _ => if_neg fun hk => e ⟨k, hk⟩
    rw [sum_congr rfl fun i _ => h2 i, ← Fintype.sum_sigma (fun r : P.Row =>
      if r ∈ switcherRows P o pl h then f r.1 (P.w r.1 r.2) else 0), ← sum_filter]
    refine sum_congr ?_ fun _ _ => rfl
    ext r; simp
  · intro i hi
    obtain ⟨k, _⟩ := (h0 i).1 (mem_filter.1 hi).2
    exact hc ⟨i, k⟩

variable [IsStrictOrderedRing K]

include hn hc hinj in
/-- C185.  When no switcher of the horizon has a missing treatment between its switch and the horizon, the distributed
normaliser is the single-machine one, for every spread of the units over the partitions. -/
theorem C185_delta (hw : ∀ r : P.Row, 0 ≤ P.w r.1 r.2)
    (hd : ∀ r ∈ switcherRows P o pl h, ∀ k ∈ inRange P h r.1, (P.d r.1 k).isSome = true) :
    deltaS P o h (P.diff pl h) part ks = (deltaD P o pl h).map some := by
  have hT : ∀ r ∈ switcherRows P o pl h, treatDiff P h r.1 = some (doseSum P h r.1) := by
    intro r hr
    have : (treatDiff P h r.1).isSome := by
      unfold treatDiff
      rw [if_pos (hd r hr)]; rfl
    obtain ⟨x, hx⟩ := Option.isSome_iff_exists.1 this
    rw [hx, dose_treatDiff P h r.1 x hx]
  have hW := sum_mapped P o h pl part ks hn hc hinj (fun _ w => w)
  have hAll : ∀ k, ∀ i ∈ mappedIn P o h (P.diff pl h) part ks k, (treatDiff P h i).isSome := by
    intro k i hi
    have hi' := (mem_filter.1 hi).2.2
    by_contra hcon
    have hno : ∀ k, (⟨i, k⟩ : P.Row) ∉ switcherRows P o pl h := by
      intro l hl
      rw [hT _ hl] at hcon
      exact hcon rfl
    rw [swMap_none P o h pl part ks hn hc i hno] at hi'
    cases hi'
  have hC : (ks.map fun k => (partDelta P o h (P.diff pl h) part ks k).1.getD 0).sum =
      ∑ r ∈ switcherRows P o pl h, P.w r.1 r.2 * (if P.S r.1 = 1 then doseSum P h r.1 else -doseSum P h r.1) := by
    have := sum_mapped P o h pl part ks hn hc hinj (fun i w => (contribS P h i w).getD 0)
    have h2 : ∀ k, (partDelta P o h (P.diff pl h) part ks k).1.getD 0 =
        ∑ i ∈ mappedIn P o h (P.diff pl h) part ks k,
          (contribS P h i ((swMap P o h (P.diff pl h) part ks i).getD 0)).getD 0 := by
      intro k
      unfold partDelta
      dsimp only
      rw [if_pos (hAll k)]; rfl
    simp only [h2]
    rw [this]
    refine sum_congr rfl fun r hr => ?_
    unfold contribS
    rw [hT r hr]; rfl
  unfold deltaS deltaD
  simp only [eventRows_eq]
  have hW' : (ks.map fun k => (partDelta P o h (P.diff pl h) part ks k).2).sum =
      ∑ r ∈ switcherRows P o pl h, P.w r.1 r.2 := hW
  rw [hW', hC]
  have hAll' : ∀ k ∈ ks, (partDelta P o h (P.diff pl h) part ks k).1.isSome := by
    intro k _
    unfold partDelta
    dsimp only
    rw [if_pos (hAll k)]; rfl
  rw [if_pos hAll']
  have hnn : 0 ≤ ∑ r ∈ switcherRows P o pl h, P.w r.1 r.2 := by
    exact sum_nonneg fun r _ => hw r
  by_cases e : ∑ r ∈ switcherRows P o pl h, P.w r.1 r.2 = 0
  · rw [if_neg (by rw [e]; exact lt_irrefl _), if_pos e]; rfl
  · rw [if_pos (lt_of_le_of_ne hnn (Ne.symm e)), if_neg e, sum_div]
    simp only [Option.map_some]
    congr 2
    refine sum_congr rfl fun r _ => ?_
    ring

include hn hc hinj in
/-- C185.  If, moreover, every switcher has controls, the normalised estimate is the single-machine one. -/
theorem C185_normalised (hw : ∀ r : P.Row, 0 ≤ P.w r.1 r.2) (heps : 0 < o.eps) (N : K) (hN : N ≠ 0)
    (hctl : ∀ r ∈ candidateRows P o pl h, 0 < ∑ s ∈ controls P o pl h r, P.w s.1 s.2)
    (hd : ∀ r ∈ switcherRows P o pl h, ∀ k ∈ inRange P h r.1, (P.d r.1 k).isSome = true) :
    normalisedS P o h (P.diff pl h) part ks N = normalised P o pl h := by
  unfold normalisedS normalised
  rw [C184_equal P o h pl part ks hn hc hw heps N hN hctl, C185_delta P o h pl part ks hn hc hinj hw hd]
  cases estimate P o pl h with
  | none => rfl
  | some e =>
    cases deltaD P o pl h with
    | none => rfl
    | some x =>
      show (if x = 0 then some e else some (e / x)) = some _
      simp only [Option.map_some, Option.getD_some]
      split <;> rfl

include hn hc hinj in
/-- C185 (violated: missing treatments).  One switcher (of positive total weight) with a missing treatment between its switch and
the horizon makes the distributed normalised estimate NaN, while the single-machine one, which skips the missing value, is
a number. -/
theorem C185_missing_violated (N : K) (r : P.Row) (hr : r ∈ switcherRows P o pl h) (k : Fin (P.n r.1))
    (hk : k ∈ inRange P h r.1) (hd : P.d r.1 k = none) (hW : 0 < ∑ r ∈ switcherRows P o pl h, P.w r.1 r.2) :
    normalisedS P o h (P.diff pl h) part ks N = none ∧ normalised P o pl h ≠ none := by
  constructor
  · unfold normalisedS
    have hdel : deltaS P o h (P.diff pl h) part ks = some none := by
      unfold deltaS
      have hW' : (ks.map fun k => (partDelta P o h (P.diff pl h) part ks k).2).sum =
          ∑ r ∈ switcherRows P o pl h, P.w r.1 r.2 := sum_mapped P o h pl part ks hn hc hinj (fun _ w => w)
      dsimp only
      rw [hW', if_pos hW, if_neg]
      intro hcon
      have := hcon (part r.1) (hc r)
      unfold partDelta at this
      dsimp only at this
      rw [if_neg] at this
      · cases this
      · intro hall
        have hmem : r.1 ∈ mappedIn P o h (P.diff pl h) part ks (part r.1) := by
          unfold mappedIn
          rw [mem_filter]
          refine ⟨mem_univ _, rfl, ?_⟩
          rw [swMap_row P o h pl part ks hn hc hinj r.1 r.2 hr]; rfl
        have h2 := hall r.1 hmem
        unfold treatDiff at h2
        rw [if_neg] at h2
        · cases h2
        · intro h3
          have := h3 k hk
          rw [hd] at this
          cases this
    rw [hdel]
    cases estimateS P o h (P.diff pl h) part ks N <;> rfl
  · unfold normalised estimate
    rw [if_neg]
    · simp
    · intro e
      rw [usedUnits_empty] at e
      rw [e] at hr
      cases hr

end

/-- `exB` with the treatment of unit 0 unknown in period 3, one period after its switch. -/
def exNoDose : Frame (Fin 4) ℕ ℚ := { exB.frame with
  d := fun i k => if i = 0 ∧ k.1 = 2 then none else exB.frame.d i k }

example : (∃ r ∈ switcherRows exNoDose (exB.opt (1 / 10)) false 2, ∃ k ∈ inRange exNoDose 2 r.1, exNoDose.d r.1 k = none) ∧ (∀ i, Function.Injective (exNoDose.t i)) ∧
    0 < ∑ r ∈ switcherRows exNoDose (exB.opt (1 / 10)) false 2, exNoDose.w r.1 r.2 ∧
    normalised exNoDose (exB.opt (1 / 10)) false 2 ≠ none ∧
    normalisedS exNoDose (exB.opt (1 / 10)) 2 (exNoDose.diff false 2) (fun i => i.1 % 2) [1, 0] 9 = none := by
  refine ⟨by decide +kernel, ?_, by decide +kernel, by decide +kernel, by decide +kernel⟩
  intro i a b e
  have : (1 : ℤ) + (a.1 : ℤ) = 1 + (b.1 : ℤ) := e
  exact Fin.ext (by omega)

example : (∀ r ∈ switcherRows exB.frame (exB.opt (1 / 10)) false 2, ∀ k ∈ inRange exB.frame 2 r.1,
      (exB.frame.d r.1 k).isSome = true) ∧
    normalisedS exB.frame (exB.opt (1 / 10)) 2 (exB.frame.diff false 2) (fun i => i.1 % 2) [1, 0] 9 =
      normalised exB.frame (exB.opt (1 / 10)) false 2 ∧
    normalised exB.frame (exB.opt (1 / 10)) false 2 ≠ none := by decide +kernel

end Verif.Inter
