import Verif.Inter.DistVar
import Verif.Inter.Controls
import Verif.Dist.Reduce

/-!
# Distributed `did_multiplegt` with covariates: C191-C193

`moderndid/distributed/_didinter_partition.py:752-1207` and `moderndid/dask/_didinter_mp.py:480-495, 628-668`, compared with
the single-machine code of `Verif.Inter.ControlsModel` (`didinter/controls.py`).  The frame, `part` and `ks` are those of
`Verif.Inter.Dist`; `lin A b` stands for `solve`, or `pinv @` when the determinant is at most `1e-16`, in both programs.
A dictionary is a function to `Option`.
-/

set_option linter.unusedSectionVars false
set_option linter.unusedSimpArgs false

namespace Verif.Inter

open Finset Matrix Verif.Dist

/-! ## `tree_reduce` is some reduction tree over its inputs -/

theorem chunks_map {V W : Type*} (g : V → W) (s : ℕ) : ∀ (n : ℕ) (l : List V),
    chunks s n (l.map g) = (chunks s n l).map (List.map g)
  | 0, l => by simp [chunks]
  | n + 1, [] => by simp [chunks]
  | n + 1, a :: l => by
    have := chunks_map g s n ((a :: l).drop s)
    rw [List.map_drop] at this
    show (((a :: l).map g).take s) :: chunks s n (((a :: l).map g).drop s) = _
    rw [this, ← List.map_take]
    rfl

theorem reduceGroup_tree {V : Type*} (f : V → V → V) (c : List (RTree V)) (hc : c ≠ []) :
    ∃ t : RTree V, t.leaves = c.flatMap RTree.leaves ∧ reduceGroup f (c.map (RTree.eval f)) = some (t.eval f) := by
  obtain ⟨a, c, rfl⟩ := List.exists_cons_of_ne_nil hc
  show ∃ t : RTree V, t.leaves = (a :: c).flatMap RTree.leaves ∧ some ((c.map (RTree.eval f)).foldl f (a.eval f)) = some (t.eval f)
  clear hc
  induction c generalizing a with
  | nil => exact ⟨a, by simp, rfl⟩
  | cons b c ih =>
    obtain ⟨t, h1, h2⟩ := ih (RTree.node a b)
    refine ⟨t, ?_, ?_⟩
    · rw [h1]; simp [RTree.leaves]
    · rw [← h2]; rfl

theorem treePass_tree {V : Type*} (f : V → V → V) (s : ℕ) (hs : 0 < s) (ts : List (RTree V)) :
    ∃ us : List (RTree V), us.flatMap RTree.leaves = ts.flatMap RTree.leaves ∧ us.length = (chunks s ts.length ts).length ∧
      treePass f s (ts.map (RTree.eval f)) = us.map (RTree.eval f) := by
  have hf := chunks_flatten s hs ts.length ts le_rfl
  unfold treePass
  rw [chunks_map, List.length_map]
  rw [show ts.flatMap RTree.leaves = (chunks s ts.length ts).flatten.flatMap RTree.leaves by rw [hf.1]]
  have hne := hf.2
  generalize chunks s ts.length ts = cs at hne
  induction cs with
  | nil => exact ⟨[], rfl, rfl, rfl⟩
  | cons c cs ih =>
    obtain ⟨us, h1, h2, h3⟩ := ih fun x hx => hne x (List.mem_cons_of_mem _ hx)
    obtain ⟨t, h4, h5⟩ := reduceGroup_tree f c (hne c List.mem_cons_self)
    refine ⟨t :: us, ?_, ?_, ?_⟩
    · rw [List.flatMap_cons, h1, h4, List.flatten_cons, List.flatMap_append]
    · simp [h2]
    · rw [List.map_cons, List.filterMap_cons, h5, h3]; rfl

/-- Dask's `tree_reduce` terminates and evaluates some binary tree over its inputs, in their order. -/
theorem treeReduce_tree {V : Type*} (f : V → V → V) (s : ℕ) (hs : 2 ≤ s) (l : List V) (hl : l ≠ []) :
    ∃ t : RTree V, t.leaves = l ∧ treeReduce f s l.length l = some (t.eval f) := by
  have gen : ∀ fuel (ts : List (RTree V)), ts ≠ [] → ts.length ≤ fuel + 1 →
      ∃ t : RTree V, t.leaves = ts.flatMap RTree.leaves ∧ treeReduce f s fuel (ts.map (RTree.eval f)) = some (t.eval f) := by
    intro fuel
    induction fuel with
    | zero =>
      intro ts hts hlen
      obtain ⟨a, rfl⟩ : ∃ a, ts = [a] := List.length_eq_one_iff.1 (by
        have := List.length_pos_iff.2 hts; omega)
      exact ⟨a, by simp, by simp [treeReduce]⟩
    | succ fuel ih =>
      intro ts hts hlen
      match ts, hts with
      | [a], _ => exact ⟨a, by simp, by simp [treeReduce]⟩
      | a :: b :: ts, _ =>
        obtain ⟨us, h1, h2, h3⟩ := treePass_tree f s (by omega) (a :: b :: ts)
        have hcl := chunks_length s hs _ (a :: b :: ts) le_rfl
        have hfl := (chunks_flatten s (by omega) _ (a :: b :: ts) le_rfl).1
        obtain ⟨t, h4, h5⟩ := ih us (by
          intro e
          rw [e] at h2
          have h0 : chunks s (a :: b :: ts).length (a :: b :: ts) = [] := List.length_eq_zero_iff.1 h2.symm
          rw [h0] at hfl
          simp at hfl) (by
          simp only [List.length_cons] at hcl hlen h2 ⊢
          omega)
        refine ⟨t, by rw [h4, h1], ?_⟩
        rw [List.map_cons, List.map_cons, treeReduce.eq_4 _ _ _ _ (by simp) (by simp)]
        rw [List.map_cons, List.map_cons] at h3
        rw [h3, h5]
  obtain ⟨t, h1, h2⟩ := gen l.length (l.map RTree.leaf) (by simpa using hl) (by simp)
  refine ⟨t, ?_, ?_⟩
  · rw [h1]
    clear h1 h2 hl
    induction l with
    | nil => rfl
    | cons a l ih => rw [List.map_cons, List.flatMap_cons, ih]; rfl
  · rw [← h2, List.map_map]
    congr 1
    exact (List.map_id l).symm

/-- A statistic that is additive under merging is the sum of the statistic over the inputs, for every reduction tree. -/
theorem eval_additive {α M : Type*} [AddCommMonoid M] (f : α → α → α) (g : α → M) (hf : ∀ a b, g (f a b) = g a + g b) :
    ∀ t : RTree α, g (t.eval f) = (t.leaves.map g).sum
  | .leaf a => by simp [RTree.eval, RTree.leaves]
  | .node l r => by
    rw [RTree.eval, hf, eval_additive f g hf l, eval_additive f g hf r, RTree.leaves, List.map_append, List.sum_append]

variable {ι β γ δ κ J K : Type*} [Fintype ι] [DecidableEq ι] [DecidableEq β] [DecidableEq γ] [DecidableEq δ] [DecidableEq κ]
  [Fintype J] [DecidableEq J] [Field K] [LinearOrder K]

/-- The entry of one baseline level, `_didinter_partition.py:853-858`. -/
structure Gram (ι J K : Type*) where
  xx : Matrix J J K
  xy : J → K
  units : Finset ι
  w : K

section
variable (P : Frame ι β K) (X : Covs P J) (lin : Matrix J J K → (J → K) → J → K) (o : Opt K) (h : ℕ) (D : P.Row → Option K)
  (part : ι → κ) (ks : List κ)

/-- The rows of a partition that enter the regression of a level, lines 817-842. -/
def partValid (k : κ) (d : K) : Finset P.Row := (validRows P X h D d).filter fun r => part r.1 = k

/-- `partition_control_gram`, lines 790-860. -/
def partGram (k : κ) : K → Option (Gram ι J K) := fun d =>
  if (partValid P X h D part k d).card = 0 then none
  else some
    { xx := fun i j => ∑ r ∈ partValid P X h D part k d, P.w r.1 r.2 * (xdiff P X h i r).getD 0 * (xdiff P X h j r).getD 0
      xy := fun j => ∑ r ∈ partValid P X h D part k d, P.w r.1 r.2 * (xdiff P X h j r).getD 0 * (D r).getD 0
      units := (partValid P X h D part k d).image Sigma.fst
      w := ∑ r ∈ partValid P X h D part k d, P.w r.1 r.2 }

/-- `reduce_control_gram`, lines 863-891. -/
def mergeGram (a b : K → Option (Gram ι J K)) : K → Option (Gram ι J K) := fun d =>
  match a d, b d with
  | some x, some y => some { xx := x.xx + y.xx, xy := x.xy + y.xy, units := x.units ∪ y.units, w := x.w + y.w }
  | some x, none => some x
  | none, y => y

/-- `global_gram`, `_didinter_mp.py:486`; `split_every` is 8. -/
def globalGram : K → Option (Gram ι J K) :=
  (treeReduce mergeGram 8 ks.length (ks.map (partGram P X h D part))).getD fun _ => none

/-- `solve_control_coefficients`, `_didinter_partition.py:894-949`: `XtWX.shape[0] < n_controls` is never true, so the only case
without coefficients is a single unit. -/
def thetaS (d : K) : Option (J → K) :=
  (globalGram P X h D part ks d).map fun g => if g.units.card ≤ 1 then 0 else lin g.xx g.xy

/-- `partition_apply_control_adjustment`, lines 952-993. -/
def adjS (r : P.Row) : Option K :=
  match thetaS P X lin h D part ks (P.dsq r.1) with
  | none => D r
  | some th => (D r).map fun y => y - ∑ j, th j * (xdiff P X h j r).getD 0

/-- A level whose coefficients are `useful`, lines 918-940. -/
def usefulS (tiny : K) (d : K) : Bool :=
  match globalGram P X h D part ks d with
  | none => false
  | some g => !decide (g.units.card ≤ 1) && decide (tiny < |g.xx.det|)

/-! ## C191: the regression -/

variable (hn : ks.Nodup) (hc : ∀ r : P.Row, part r.1 ∈ ks)

theorem globalGram_tree : ks = [] ∨ ∃ t : RTree (K → Option (Gram ι J K)), t.leaves = ks.map (partGram P X h D part) ∧
    globalGram P X h D part ks = t.eval mergeGram := by
  by_cases e : ks = []
  · exact Or.inl e
  · right
    obtain ⟨t, h1, h2⟩ := treeReduce_tree mergeGram 8 (by omega) (ks.map (partGram P X h D part)) (by simpa using e)
    refine ⟨t, h1, ?_⟩
    rw [List.length_map] at h2
    unfold globalGram
    rw [h2]; rfl

theorem isSome_eval (d : K) : ∀ t : RTree (K → Option (Gram ι J K)),
    (t.eval mergeGram d).isSome = true ↔ ∃ a ∈ t.leaves, (a d).isSome = true
  | .leaf a => by simp [RTree.eval, RTree.leaves]
  | .node l r => by
    have h1 := isSome_eval d l
    have h2 := isSome_eval d r
    simp only [RTree.eval, RTree.leaves, List.mem_append, or_and_right, exists_or]
    rw [← h1, ← h2]
    generalize l.eval mergeGram = a
    generalize r.eval mergeGram = b
    unfold mergeGram
    cases a d <;> cases b d <;> simp

theorem units_eval (d : K) (i : ι) : ∀ t : RTree (K → Option (Gram ι J K)),
    (i ∈ ((t.eval mergeGram d).map Gram.units).getD ∅) ↔ ∃ a ∈ t.leaves, i ∈ ((a d).map Gram.units).getD ∅
  | .leaf a => by simp [RTree.eval, RTree.leaves]
  | .node l r => by
    have h1 := units_eval d i l
    have h2 := units_eval d i r
    simp only [RTree.eval, RTree.leaves, List.mem_append, or_and_right, exists_or]
    rw [← h1, ← h2]
    generalize l.eval mergeGram = a
    generalize r.eval mergeGram = b
    unfold mergeGram
    cases a d <;> cases b d <;> simp

theorem sum_eval {M : Type*} [AddCommMonoid M] (d : K) (f : Gram ι J K → M)
    (hf : ∀ x y : Gram ι J K, f ⟨x.xx + y.xx, x.xy + y.xy, x.units ∪ y.units, x.w + y.w⟩ = f x + f y)
    (t : RTree (K → Option (Gram ι J K))) :
    ((t.eval mergeGram d).map f).getD 0 = (t.leaves.map fun a => ((a d).map f).getD 0).sum := by
  refine eval_additive mergeGram (fun a => ((a d).map f).getD 0) ?_ t
  intro a b
  unfold mergeGram
  cases ha : a d <;> cases hb : b d <;> simp [hf]

theorem partGram_sum (F : P.Row → K) (d : K) (k : κ) (f : Gram ι J K → K)
    (hf : (partValid P X h D part k d).card ≠ 0 → ((partGram P X h D part k d).map f) =
      some (∑ r ∈ partValid P X h D part k d, F r)) :
    ((partGram P X h D part k d).map f).getD 0 = ∑ r ∈ (validRows P X h D d).filter (fun r => part r.1 = k), F r := by
  by_cases e : (partValid P X h D part k d).card = 0
  · have : partGram P X h D part k d = none := by unfold partGram; rw [if_pos e]
    rw [this]
    show _ = ∑ r ∈ partValid P X h D part k d, F r
    rw [card_eq_zero.1 e]; simp
  · rw [hf e]; rfl

include hn hc in
/-- C191.  However the units are spread over the workers, the reduced regression of a level is the one over all rows of all
never-switchers of that level with an observed outcome change and covariate changes. -/
theorem C191_gram (d : K) : globalGram P X h D part ks d =
    if validRows P X h D d = ∅ then none
    else some ⟨gramX P X h D d, momX P X h D d, (validRows P X h D d).image Sigma.fst, ∑ r ∈ validRows P X h D d, P.w r.1 r.2⟩ := by
  have hparts : ∀ F : P.Row → K, (ks.map fun k => ∑ r ∈ (validRows P X h D d).filter (fun r => part r.1 = k), F r).sum =
      ∑ r ∈ validRows P X h D d, F r := fun F =>
    sum_all_parts (validRows P X h D d) (fun r : P.Row => part r.1) F ks hn (fun r _ => hc r)
  have hsome : ∀ k, (partGram P X h D part k d).isSome = true ↔ ∃ r ∈ validRows P X h D d, part r.1 = k := by
    intro k
    unfold partGram
    by_cases e : (partValid P X h D part k d).card = 0
    · rw [if_pos e]
      rw [card_eq_zero, partValid, filter_eq_empty_iff] at e
      simp only [Option.isSome_none, Bool.false_eq_true, false_iff, not_exists, not_and]
      exact fun r hr => e hr
    · rw [if_neg e]
      obtain ⟨r, hr⟩ := card_ne_zero.1 e
      simp only [Option.isSome_some, true_iff]
      exact ⟨r, (mem_filter.1 hr).1, (mem_filter.1 hr).2⟩
  rcases globalGram_tree P X h D part ks with e | ⟨t, h1, h2⟩
  · subst e
    have : validRows P X h D d = ∅ := by
      rw [eq_empty_iff_forall_notMem]
      intro r _
      have := hc r
      simp at this
    rw [if_pos this]; rfl
  · rw [h2]
    have hS : (t.eval mergeGram d).isSome = true ↔ validRows P X h D d ≠ ∅ := by
      rw [isSome_eval, h1, ← nonempty_iff_ne_empty]
      constructor
      · rintro ⟨a, ha, hs⟩
        obtain ⟨k, _, rfl⟩ := List.mem_map.1 ha
        obtain ⟨r, hr, _⟩ := (hsome k).1 hs
        exact ⟨r, hr⟩
      · rintro ⟨r, hr⟩
        exact ⟨_, List.mem_map.2 ⟨part r.1, hc r, rfl⟩, (hsome _).2 ⟨r, hr, rfl⟩⟩
    by_cases e : validRows P X h D d = ∅
    · rw [if_pos e]
      cases hx : t.eval mergeGram d with
      | none => rfl
      | some g => rw [hx] at hS; exact absurd e (hS.1 rfl)
    · rw [if_neg e]
      obtain ⟨g, hg⟩ := Option.isSome_iff_exists.1 (hS.2 e)
      rw [hg]
      have e1 : ∀ i j, g.xx i j = gramX P X h D d i j := by
        intro i j
        have := sum_eval (M := K) d (fun g : Gram ι J K => g.xx i j) (fun x y => rfl) t
        rw [hg, h1, List.map_map] at this
        rw [show (g.xx i j) = ((some g).map fun g : Gram ι J K => g.xx i j).getD 0 from rfl, this]
        unfold gramX
        rw [← hparts]
        congr 1
        refine List.map_congr_left fun k _ => ?_
        refine partGram_sum P X h D part _ d k _ fun e' => ?_
        unfold partGram
        rw [if_neg e']; rfl
      have e2 : ∀ j, g.xy j = momX P X h D d j := by
        intro j
        have := sum_eval (M := K) d (fun g : Gram ι J K => g.xy j) (fun x y => rfl) t
        rw [hg, h1, List.map_map] at this
        rw [show (g.xy j) = ((some g).map fun g : Gram ι J K => g.xy j).getD 0 from rfl, this]
        unfold momX
        rw [← hparts]
        congr 1
        refine List.map_congr_left fun k _ => ?_
        refine partGram_sum P X h D part _ d k _ fun e' => ?_
        unfold partGram
        rw [if_neg e']; rfl
      have e3 : g.w = ∑ r ∈ validRows P X h D d, P.w r.1 r.2 := by
        have := sum_eval (M := K) d (fun g : Gram ι J K => g.w) (fun x y => rfl) t
        rw [hg, h1, List.map_map] at this
        rw [show g.w = ((some g).map fun g : Gram ι J K => g.w).getD 0 from rfl, this, ← hparts]
        congr 1
        refine List.map_congr_left fun k _ => ?_
        refine partGram_sum P X h D part _ d k _ fun e' => ?_
        unfold partGram
        rw [if_neg e']; rfl
      have e4 : g.units = (validRows P X h D d).image Sigma.fst := by
        ext i
        have := units_eval d i t
        rw [hg, h1] at this
        rw [show (i ∈ g.units) = (i ∈ ((some g).map Gram.units).getD ∅) from rfl, this]
        simp only [List.mem_map, exists_exists_and_eq_and, mem_image]
        have hk : ∀ k, i ∈ ((partGram P X h D part k d).map Gram.units).getD ∅ ↔
            ∃ r ∈ validRows P X h D d, part r.1 = k ∧ r.1 = i := by
          intro k
          unfold partGram
          by_cases e : (partValid P X h D part k d).card = 0
          · rw [if_pos e]
            rw [card_eq_zero, partValid, filter_eq_empty_iff] at e
            simp only [Option.map_none, Option.getD_none, notMem_empty, false_iff, not_exists, not_and]
            exact fun r hr h' => absurd h' (e hr)
          · rw [if_neg e]
            simp only [Option.map_some, Option.getD_some, mem_image, partValid, mem_filter]
            constructor
            · rintro ⟨r, ⟨a, b⟩, c⟩; exact ⟨r, a, b, c⟩
            · rintro ⟨r, a, b, c⟩; exact ⟨r, ⟨a, b⟩, c⟩
        simp only [hk]
        constructor
        · rintro ⟨k, _, r, hr, _, hi⟩; exact ⟨r, hr, hi⟩
        · rintro ⟨r, hr, hi⟩; exact ⟨part r.1, hc r, r, hr, rfl, hi⟩
      cases g with
      | mk a b c w =>
        have : a = gramX P X h D d := by funext i j; exact e1 i j
        subst this
        have : b = momX P X h D d := by funext j; exact e2 j
        subst this
        simp only at e3 e4
        rw [e3, e4]

theorem level_of_valid {d : K} (e : validRows P X h D d ≠ ∅) : isLevel P d = true := by
  obtain ⟨r, hr⟩ := nonempty_iff_ne_empty.2 e
  unfold validRows regRows at hr
  simp only [mem_filter, mem_univ, true_and] at hr
  unfold isLevel
  rw [decide_eq_true_iff]
  exact ⟨r.1, hr.1.2.1, hr.1.1, lt_of_le_of_lt (Nat.zero_le _) r.2.2⟩

include hn hc in
/-- C191.  The distributed adjustment: the regression is used as soon as two units have a usable row. -/
theorem C191_adjustment (r : P.Row) : adjS P X lin h D part ks r =
    if 1 < ((validRows P X h D (P.dsq r.1)).image Sigma.fst).card then
      (D r).map fun y => y - ∑ j, lin (gramX P X h D (P.dsq r.1)) (momX P X h D (P.dsq r.1)) j * (xdiff P X h j r).getD 0
    else D r := by
  unfold adjS thetaS
  rw [C191_gram P X h D part ks hn hc]
  by_cases e : validRows P X h D (P.dsq r.1) = ∅
  · rw [if_pos e, e]; simp
  · rw [if_neg e]
    simp only [Option.map_some]
    by_cases e' : 1 < ((validRows P X h D (P.dsq r.1)).image Sigma.fst).card
    · rw [if_pos e', if_neg (by omega)]
    · rw [if_neg e', if_pos (by omega)]
      cases D r <;> simp

include hn hc in
/-- C191.  If the usable rows of a level come from at least two units and are more than the covariates, the distributed adjusted
outcome changes are the single-machine ones. -/
theorem C191_equal (r : P.Row) (h2 : 1 < ((validRows P X h D (P.dsq r.1)).image Sigma.fst).card)
    (hJ : Fintype.card J + 1 ≤ (validRows P X h D (P.dsq r.1)).card) :
    adjS P X lin h D part ks r = adjD P X lin h D r := by
  rw [C191_adjustment P X lin h D part ks hn hc, if_pos h2]
  have hne : validRows P X h D (P.dsq r.1) ≠ ∅ := by
    intro e; rw [e] at h2; simp at h2
  have hsub : validRows P X h D (P.dsq r.1) ⊆ regRows P D (P.dsq r.1) := filter_subset _ _
  have hen : enough P X h D (P.dsq r.1) = true := by
    unfold enough
    simp only [Bool.and_eq_true, decide_eq_true_iff]
    refine ⟨⟨le_trans hJ (card_le_card hsub), lt_of_lt_of_le h2 (card_le_card (image_subset_image hsub))⟩, hJ⟩
  unfold adjD theta
  rw [if_pos (level_of_valid P X h D hne), if_pos hen]

include hn hc in
/-- C191.  The two also agree when at most one never-switcher of the level has an observed outcome change: neither adjusts. -/
theorem C191_equal_unadjusted (r : P.Row) (h1 : ((regRows P D (P.dsq r.1)).image Sigma.fst).card ≤ 1) :
    adjS P X lin h D part ks r = D r ∧ adjD P X lin h D r = D r := by
  refine ⟨?_, C144_unidentified_violated P X lin h D r h1⟩
  rw [C191_adjustment P X lin h D part ks hn hc, if_neg]
  have hsub : validRows P X h D (P.dsq r.1) ⊆ regRows P D (P.dsq r.1) := filter_subset _ _
  have := card_le_card (image_subset_image (f := Sigma.fst) hsub)
  omega

include hn hc in
/-- C191 (violated: few rows).  Two units but no more usable rows than covariates: the single machine leaves the outcome change as
it is, the distributed program subtracts a fitted combination of the covariates. -/
theorem C191_few_rows_violated (r : P.Row) (h2 : 1 < ((validRows P X h D (P.dsq r.1)).image Sigma.fst).card)
    (hJ : (validRows P X h D (P.dsq r.1)).card ≤ Fintype.card J) :
    adjD P X lin h D r = D r ∧ adjS P X lin h D part ks r = (D r).map fun y =>
      y - ∑ j, lin (gramX P X h D (P.dsq r.1)) (momX P X h D (P.dsq r.1)) j * (xdiff P X h j r).getD 0 := by
  refine ⟨?_, by rw [C191_adjustment P X lin h D part ks hn hc, if_pos h2]⟩
  have hen : enough P X h D (P.dsq r.1) = false := by
    unfold enough
    have : ¬ Fintype.card J + 1 ≤ (validRows P X h D (P.dsq r.1)).card := by omega
    simp [this]
  unfold adjD theta
  rw [hen]
  by_cases e : isLevel P (P.dsq r.1) = true
  · rw [if_pos e]; cases D r <;> simp
  · rw [if_neg e]

include hn hc in
/-- C191 (violated: one unit with complete covariates).  The single machine counts the units before the rows with missing
covariates are dropped and still regresses; the distributed program counts them after and does not adjust. -/
theorem C191_one_unit_violated (r : P.Row) (h1 : ((validRows P X h D (P.dsq r.1)).image Sigma.fst).card ≤ 1)
    (h2 : 1 < ((regRows P D (P.dsq r.1)).image Sigma.fst).card)
    (hJ : Fintype.card J + 1 ≤ (validRows P X h D (P.dsq r.1)).card) :
    adjS P X lin h D part ks r = D r ∧ adjD P X lin h D r = (D r).map fun y =>
      y - ∑ j, lin (gramX P X h D (P.dsq r.1)) (momX P X h D (P.dsq r.1)) j * (xdiff P X h j r).getD 0 := by
  refine ⟨by rw [C191_adjustment P X lin h D part ks hn hc, if_neg (by omega)], ?_⟩
  have hne : validRows P X h D (P.dsq r.1) ≠ ∅ := by
    intro e; rw [e] at hJ; simp at hJ
  have hsub : validRows P X h D (P.dsq r.1) ⊆ regRows P D (P.dsq r.1) := filter_subset _ _
  have hen : enough P X h D (P.dsq r.1) = true := by
    unfold enough
    simp only [Bool.and_eq_true, decide_eq_true_iff]
    exact ⟨⟨le_trans hJ (card_le_card hsub), h2⟩, hJ⟩
  unfold adjD theta
  rw [if_pos (level_of_valid P X h D hne), if_pos hen]

end

/-! ## C192: the estimate with covariates -/

section
variable (P : Frame ι β K) (X : Covs P J) (lin : Matrix J J K → (J → K) → J → K) (o : Opt K) (h : ℕ) (D : P.Row → Option K)
  (part : ι → κ) (ks : List κ) (hn : ks.Nodup) (hc : ∀ r : P.Row, part r.1 ∈ ks)
  (hctl : ∀ r : P.Row, rawEvent P o h r = true → D r ≠ none → 0 < nControlD P o D r)

include hctl in
theorem distWRaw_ctl (r : P.Row) : distWRaw P o h D r = distWD P o h D r := by
  unfold distWRaw distWD distRaw distD
  rw [isEventD_raw]
  by_cases e : swMask P o r.1 = true
  · rw [if_pos e, if_pos e]
    cases hx : D r with
    | none => simp
    | some x =>
      by_cases e' : rawEvent P o h r = true
      · have := hctl r e' (by rw [hx]; simp)
        simp [e', this]
      · simp [e']
  · rw [if_neg e, if_neg e]

include hn hc hctl in
theorem nTreatedS_ctl (r : P.Row) : nTreatedS P o h D part ks r = nTreatedD P o h D r := by
  rw [nTreatedS_eq P o h D part ks hn hc]
  unfold nTreatedD
  exact sum_congr rfl fun s _ => distWRaw_ctl P o h D hctl s

include hn hc hctl in
theorem scalars_ctl : (globalScalars P o h D part ks).1 = nSwWD P o h D := by
  rw [scalars_fst P o h D part ks hn hc]
  unfold nSwWD
  exact sum_congr rfl fun s _ => distWRaw_ctl P o h D hctl s

include hn hc hctl in
theorem contrast_ctl (r : P.Row) : (distS P o h D part ks r).getD 0 - nTreatedS P o h D part ks r
        / (if nControlS P o h D part ks r = 0 then 1 else nControlS P o h D part ks r) * (neverD P o D r).getD 0 =
    (contrastD P o h D r).getD 0 := by
  rw [distS_eq P o h part ks hn hc, nControlS_eq P o h _ part ks hn hc, nTreatedS_ctl P o h D part ks hn hc hctl]
  unfold contrastD
  cases hx : D r with
  | none =>
    have h1 : distD P o h D r = none := by unfold distD; rw [hx]; rfl
    have h2 : neverD P o D r = none := by unfold neverD; rw [hx]; rfl
    rw [h1, h2]; simp
  | some x =>
    obtain ⟨a, ha⟩ : ∃ a, distD P o h D r = some a := by unfold distD; rw [hx]; exact ⟨_, rfl⟩
    rw [ha]; rfl

theorem total_eqD (D : P.Row → Option K) (part : ι → κ) (ks : List κ) (hn : ks.Nodup) (hc : ∀ r : P.Row, part r.1 ∈ ks) (N : K) :
    (ks.map (partialS P o h D part ks N)).sum = ∑ r : P.Row, infTempS P o h D part ks N r := by
  have h1 : ∀ k, partialS P o h D part ks N k =
      ∑ r ∈ (univ : Finset P.Row).filter (fun r => part r.1 = k), infTempS P o h D part ks N r := by
    intro k
    unfold partialS unitInfS
    rw [sum_filter, sum_filter, Fintype.sum_sigma]
    refine sum_congr rfl fun i _ => ?_
    split <;> simp_all
  rw [funext h1]
  exact sum_all_parts univ (fun r : P.Row => part r.1) _ ks hn (fun r _ => hc r)

include hn hc hctl in
/-- For any outcome changes, if every row that is `h` periods past a switch has controls. -/
theorem estimateS_ctl (N : K) (hN : N ≠ 0) [CharZero K] (hne : ∃ r : P.Row, rawEvent P o h r = true ∧ D r ≠ none) :
    estimateS P o h D part ks N = some (estimateD P o h D) := by
  obtain ⟨r, hr, hd⟩ := hne
  have hι : (Fintype.card ι : K) ≠ 0 := by
    have : 0 < Fintype.card ι := Fintype.card_pos_iff.2 ⟨r.1⟩
    exact_mod_cast this.ne'
  have hm : r.1 ∈ (globalScalars P o h D part ks).2 := by
    rw [mem_scalars P o h D part ks hc]
    refine ⟨r.2, ?_, swMask_of_raw hr⟩
    unfold distRaw
    obtain ⟨x, hx⟩ := Option.ne_none_iff_exists'.1 hd
    show (D r).map _ = _
    rw [hx]
    have : rawEvent P o h ⟨r.1, r.2⟩ = true := hr
    simp [this]
  unfold estimateS
  rw [if_neg (card_ne_zero_of_mem hm), total_eqD P o h D part ks hn hc]
  unfold estimateD
  congr 1
  rw [div_eq_div_iff hN hι, sum_mul, sum_mul]
  refine sum_congr rfl fun s _ => ?_
  unfold infTempS
  rw [contrast_ctl P o h D part ks hn hc hctl, scalars_ctl P o h D part ks hn hc hctl]
  unfold scaleGN
  cases contrastD P o h D s with
  | none => simp
  | some a =>
    simp only [Option.map_some, Option.getD_some]
    field_simp

end

section
variable (P : Frame ι β K) (X : Covs P J) (lin : Matrix J J K → (J → K) → J → K) (o : Opt K) (h : ℕ) (pl : Bool)
  (part : ι → κ) (ks : List κ) (hn : ks.Nodup) (hc : ∀ r : P.Row, part r.1 ∈ ks)

theorem adjD_none (D : P.Row → Option K) (r : P.Row) : adjD P X lin h D r = none ↔ D r = none := by
  unfold adjD
  split_ifs <;> simp

theorem nControlD_adj (D : P.Row → Option K) (r : P.Row) :
    nControlD P o (adjD P X lin h D) r = nControlD P o D r := by
  unfold nControlD
  refine sum_congr rfl fun s _ => ?_
  unfold neverD adjD
  split_ifs <;> cases D s <;> simp

/-- Every baseline level has either a regression over at least two units and more rows than covariates, or at most one
never-switcher. -/
def RegressionOk (D : P.Row → Option K) : Prop := ∀ r : P.Row,
  (1 < ((validRows P X h D (P.dsq r.1)).image Sigma.fst).card ∧ Fintype.card J + 1 ≤ (validRows P X h D (P.dsq r.1)).card) ∨
    ((regRows P D (P.dsq r.1)).image Sigma.fst).card ≤ 1

include hn hc in
theorem adjS_eq (D : P.Row → Option K) (hR : RegressionOk P X h D) : adjS P X lin h D part ks = adjD P X lin h D := by
  funext r
  rcases hR r with ⟨h1, h2⟩ | h1
  · exact C191_equal P X lin h D part ks hn hc r h1 h2
  · have := C191_equal_unadjusted P X lin h D part ks hn hc r h1
    rw [this.1, this.2]

/-- The condition of C184 says that the controls' weights are positive for every outcome change with the same missing rows. -/
theorem ctl_of_candidate (hctl : ∀ r ∈ candidateRows P o pl h, 0 < ∑ s ∈ controls P o pl h r, P.w s.1 s.2) (r : P.Row)
    (e : rawEvent P o h r = true) (hd : adjD P X lin h (P.diff pl h) r ≠ none) :
    0 < nControlD P o (adjD P X lin h (P.diff pl h)) r := by
  rw [nControlD_adj, nControlD_eq, nControl_eq]
  refine hctl r ((mem_candidateRows P o pl h r).2 ⟨e, fun h' => hd ((adjD_none P X lin h _ r).2 h')⟩)

include hn hc in
/-- C192.  With covariates, if every candidate switcher has a control and every baseline level has an ordinary regression, the
distributed estimate of every effect and placebo is the single-machine one, for every spread of the units over the workers. -/
theorem C192_estimate [CharZero K] (hR : RegressionOk P X h (P.diff pl h))
    (hctl : ∀ r ∈ candidateRows P o pl h, 0 < ∑ s ∈ controls P o pl h r, P.w s.1 s.2)
    (hne : candidateRows P o pl h ≠ ∅) (N : K) (hN : N ≠ 0) :
    estimateS P o h (adjS P X lin h (P.diff pl h) part ks) part ks N =
      some (estimateD P o h (adjD P X lin h (P.diff pl h))) := by
  rw [adjS_eq P X lin h part ks hn hc _ hR]
  refine estimateS_ctl P o h _ part ks hn hc (ctl_of_candidate P X lin o h pl hctl) N hN ?_
  obtain ⟨r, hr⟩ := nonempty_iff_ne_empty.2 hne
  have := (mem_candidateRows P o pl h r).1 hr
  exact ⟨r, this.1, fun e => this.2 ((adjD_none P X lin h _ r).1 e)⟩

end

/-! ## C193: the covariate part of the variance -/

section
variable (P : Frame ι β K) (X : Covs P J) (o : Opt K) (h : ℕ) (E : P.Row → Option K) (part : ι → κ) (ks : List κ)
  (v : VOpt ι γ K) (base : β → δ)

/-- `m_vals`, `_didinter_partition.py:1062-1068`. -/
def mValS (N : K) (j : J) (d : K) (r : P.Row) : K :=
  (if P.dsq r.1 = d then 1 else 0) * (N / max (globalScalars P o h E part ks).1 o.eps)
    * ((distS P o h E part ks r).getD 0 - nTreatedS P o h E part ks r
        / (if nControlS P o h E part ks r = 0 then 1 else nControlS P o h E part ks r) * (neverD P o E r).getD 0)
    * (if (h : ℤ) + 1 ≤ P.time r ∧ P.time r ≤ (univ.image (P.t r.1)).max.unbotD 0 then 1 else 0) * wxdiff P X h j r

/-- `M_total` of a partition, lines 1070-1085: every unit is counted at its first row. -/
def partM (N : K) (k : κ) : J → K → K := fun j d =>
  ∑ i ∈ univ.filter (fun i => part i = k), ∑ t : Fin (P.n i), mValS P X o h E part ks N j d ⟨i, t⟩

/-- `global_M_total`, `_didinter_mp.py:645-647`; a missing key is 0. -/
def globalM (N : K) : J → K → K := (treeReduce (fun a b => a + b) 8 ks.length (ks.map (partM P X o h E part ks N))).getD 0

/-- `part2` of a unit, `_didinter_partition.py:1138-1207`, over the useful levels; `in_sum` and `inv_denom` are not used. -/
def part2S (N : K) (levels : Finset K) (th : K → J → K) (i : ι) : K :=
  ∑ _t : Fin (P.n i), ∑ d ∈ levels, if P.dsq i = d ∧ P.F i ≠ ⊤ then
    ∑ j, globalM P X o h E part ks N j d / N * (- th d j) else 0

/-- The influence value with covariates, `_didinter_mp.py:649-661`. -/
def unitVarXS (N : K) (levels : Finset K) (th : K → J → K) (i : ι) : K :=
  unitVarS P o h E part ks v base N i - part2S P X o h E part ks N levels th i

variable (hn : ks.Nodup) (hc : ∀ r : P.Row, part r.1 ∈ ks)
  (hctl : ∀ r : P.Row, rawEvent P o h r = true → E r ≠ none → 0 < nControlD P o E r)

include hn hc in
theorem globalM_eq (N : K) (j : J) (d : K) : globalM P X o h E part ks N j d = ∑ r : P.Row, mValS P X o h E part ks N j d r := by
  have hp : ∀ k, partM P X o h E part ks N k j d =
      ∑ r ∈ (univ : Finset P.Row).filter (fun r => part r.1 = k), mValS P X o h E part ks N j d r := by
    intro k
    unfold partM
    rw [sum_filter, sum_filter, Fintype.sum_sigma]
    refine sum_congr rfl fun i _ => ?_
    split <;> simp_all
  rw [← sum_all_parts univ (fun r : P.Row => part r.1) _ ks hn (fun r _ => hc r)]
  rw [← funext hp]
  by_cases e : ks = []
  · subst e; rfl
  · obtain ⟨t, h1, h2⟩ := treeReduce_tree (fun a b : J → K → K => a + b) 8 (by omega) (ks.map (partM P X o h E part ks N))
      (by simpa using e)
    rw [List.length_map] at h2
    unfold globalM
    rw [h2]
    have := eval_additive (fun a b : J → K → K => a + b) (fun a => a j d) (fun _ _ => rfl) t
    rw [Option.getD_some, this, h1, List.map_map]
    rfl

include hn hc hctl in
/-- The total of the distributed program, per unit it counts, is the single-machine one. -/
theorem globalM_ctl [CharZero K] (N : K) (hN : N ≠ 0) (i₀ : ι) (j : J) (d : K) :
    globalM P X o h E part ks N j d / N = (∑ i, mSum P X h o E j d i) / Fintype.card ι := by
  have hι : (Fintype.card ι : K) ≠ 0 := by
    have : 0 < Fintype.card ι := Fintype.card_pos_iff.2 ⟨i₀⟩
    exact_mod_cast this.ne'
  rw [globalM_eq P X o h E part ks hn hc, div_eq_div_iff hN hι, Fintype.sum_sigma, sum_mul, sum_mul]
  refine sum_congr rfl fun i _ => ?_
  unfold mSum
  rw [sum_mul, sum_mul]
  refine sum_congr rfl fun k _ => ?_
  unfold mValS
  rw [contrast_ctl P o h E part ks hn hc hctl, scalars_ctl P o h E part ks hn hc hctl]
  unfold scaleGN
  show _ * _ * _ * (if (h : ℤ) + 1 ≤ P.t i k ∧ P.t i k ≤ _ then (1 : K) else 0) * _ * _ = _
  cases contrastD P o h E ⟨i, k⟩ with
  | none => simp
  | some a =>
    simp only [Option.map_some, Option.getD_some]
    ring

/-- What the covariates of a level cost, per row of a unit. -/
def cost (th : K → J → K) (d : K) : K := ∑ j, (∑ i, mSum P X h o E j d i) / Fintype.card ι * th d j

include hn hc hctl in
/-- C193.  The distributed program adds the cost of a level to the influence values of the switchers of that level only. -/
theorem C193_part2 [CharZero K] (N : K) (hN : N ≠ 0) (levels : Finset K) (th : K → J → K) (i : ι) :
    part2S P X o h E part ks N levels th i =
      if P.F i ≠ ⊤ ∧ P.dsq i ∈ levels then -((P.n i : K) * cost P X o h E th (P.dsq i)) else 0 := by
  have h1 : ∀ d, (if P.dsq i = d ∧ P.F i ≠ ⊤ then ∑ j, globalM P X o h E part ks N j d / N * (- th d j) else 0) =
      if P.dsq i = d then (if P.F i ≠ ⊤ then - cost P X o h E th d else 0) else 0 := by
    intro d
    have : ∑ j, globalM P X o h E part ks N j d / N * (- th d j) = - cost P X o h E th d := by
      unfold cost
      rw [← sum_neg_distrib]
      refine sum_congr rfl fun j _ => ?_
      rw [globalM_ctl P X o h E part ks hn hc hctl N hN i, mul_neg]
    rw [this, ite_and]
  unfold part2S
  simp only [h1, sum_ite_eq, sum_const, card_univ, Fintype.card_fin, nsmul_eq_mul]
  by_cases a : P.F i ≠ ⊤ <;> by_cases b : P.dsq i ∈ levels <;> simp [a, b]

include hn hc hctl in
/-- C193 (violated).  The single machine adds the costs of all levels to the influence value of every unit (C146).  So the two
parts agree on a switcher when its level is the only useful one, and a never-switcher misses its part in the distributed
program. -/
theorem C193_difference_violated [CharZero K] (N : K) (hN : N ≠ 0) (levels : Finset K) (inv : K → Matrix J J K) (th : K → J → K)
    (i : ι) : part2S P X o h E part ks N levels th i - part2 P X h o E levels inv th i =
      (P.n i : K) * ∑ d ∈ levels.filter (fun d => ¬(P.F i ≠ ⊤ ∧ P.dsq i = d)), cost P X o h E th d := by
  rw [C193_part2 P X o h E part ks hn hc hctl N hN, C146_adjustment_violated]
  show _ - -((P.n i : K) * ∑ d ∈ levels, cost P X o h E th d) = _
  have hs : ∑ d ∈ levels, cost P X o h E th d =
      ∑ d ∈ levels.filter (fun d => P.F i ≠ ⊤ ∧ P.dsq i = d), cost P X o h E th d +
        ∑ d ∈ levels.filter (fun d => ¬(P.F i ≠ ⊤ ∧ P.dsq i = d)), cost P X o h E th d :=
    (sum_filter_add_sum_filter_not _ _ _).symm
  have h1 : ∑ d ∈ levels.filter (fun d => P.F i ≠ ⊤ ∧ P.dsq i = d), cost P X o h E th d =
      if P.F i ≠ ⊤ ∧ P.dsq i ∈ levels then cost P X o h E th (P.dsq i) else 0 := by
    rw [sum_filter]
    simp only [ite_and]
    by_cases a : P.F i ≠ ⊤
    · simp [a, sum_ite_eq]
    · simp [a]
  rw [hs, h1]
  by_cases e : P.F i ≠ ⊤ ∧ P.dsq i ∈ levels
  · rw [if_pos e, if_pos e]; ring
  · rw [if_neg e, if_neg e]; ring

end

section
variable (P : Frame ι β K) (o : Opt K) (h : ℕ) (E : P.Row → Option K) (pl : Bool) (part : ι → κ) (ks : List κ) (v : VOpt ι γ K)
  (base : β → δ) (hn : ks.Nodup) (hc : ∀ r : P.Row, part r.1 ∈ ks) [IsStrictOrderedRing K]
  (hctl : ∀ r : P.Row, rawEvent P o h r = true → E r ≠ none → 0 < nControlD P o E r)

include hn hc hctl in
/-- C186 for any outcome changes. -/
theorem unitVarS_ctl (hw : ∀ r : P.Row, 0 ≤ P.w r.1 r.2) (hh : 1 ≤ h) (hcl : v.cluster = none)
    (hb : ∀ i j, base (P.cell i) = base (P.cell j) → P.cell i = P.cell j)
    (hT : ∀ r : P.Row, E r ≠ none → P.time r ≤ tGS P part r.1) (N : K) (i : ι) :
    unitVarS P o h E part ks v base N i = N / Fintype.card ι * unitVar P o h E v pl i := by
  have hι : (Fintype.card ι : K) ≠ 0 := by
    have : 0 < Fintype.card ι := Fintype.card_pos_iff.2 ⟨i⟩
    exact_mod_cast this.ne'
  unfold unitVarS unitVar
  rw [mul_sum]
  refine sum_congr rfl fun k _ => ?_
  generalize (⟨i, k⟩ : P.Row) = r
  unfold infVarS infVar
  rw [contrast_ctl P o h E part ks hn hc hctl, scalars_ctl P o h E part ks hn hc hctl]
  unfold scaleGN
  cases ha : contrastD P o h E r with
  | none => simp
  | some a =>
    simp only [Option.map_some, Option.getD_some]
    by_cases ha0 : a = 0
    · rw [ha0]; ring
    · have hx : E r ≠ none := by
        intro e
        unfold contrastD distD at ha
        rw [e] at ha; cases ha
      have heq : eHatS P o h E part ks v base r = eHat P o h E v pl r ∧
          dofScaleS P o h E part ks v base r = dofScale P o h E v pl r := by
        by_cases hs : isSwD P o h E r = true
        · exact scale_sw P o h _ part ks v base hn hc hw pl hcl hb hh hs
        · by_cases hct : isCtD P o E r = true
          · exact scale_ct P o h _ part ks v base hn hc hw pl hcl hh hct
          · exact absurd (contrast_zero P o h _ ha (by simpa using hs) (Or.inl (by simpa using hct))) ha0
      rw [heq.1, heq.2, window_eq P h part r (hT r hx)]
      field_simp

end

section
variable (P : Frame ι β K) (X : Covs P J) (lin : Matrix J J K → (J → K) → J → K) (o : Opt K) (h : ℕ) (pl : Bool)
  (part : ι → κ) (ks : List κ) (v : VOpt ι γ K) (base : β → δ)
  (hn : ks.Nodup) (hc : ∀ r : P.Row, part r.1 ∈ ks) [IsStrictOrderedRing K]

include hn hc in
/-- C193.  Under the conditions of C186 and C192, and with no unit dropped, the distributed influence value of a switcher whose
level is the only useful one is the single-machine one; a never-switcher's lacks the cost of every level. -/
theorem C193_influence (hR : RegressionOk P X h (P.diff pl h)) (hw : ∀ r : P.Row, 0 ≤ P.w r.1 r.2) (hh : 1 ≤ h)
    (hcl : v.cluster = none) (hb : ∀ i j, base (P.cell i) = base (P.cell j) → P.cell i = P.cell j)
    (hT : ∀ r : P.Row, P.diff pl h r ≠ none → P.time r ≤ tGS P part r.1)
    (hctl : ∀ r ∈ candidateRows P o pl h, 0 < ∑ s ∈ controls P o pl h r, P.w s.1 s.2)
    (d : K) (inv : K → Matrix J J K) (th : K → J → K) (i : ι) :
    unitVarXS P X o h (adjS P X lin h (P.diff pl h) part ks) part ks v base (Fintype.card ι) {d} th i =
      unitVarX P X h o v (adjD P X lin h (P.diff pl h)) {d} inv th pl i -
        if P.F i ≠ ⊤ ∧ P.dsq i = d then 0 else (P.n i : K) * cost P X o h (adjD P X lin h (P.diff pl h)) th d := by
  have hι : (Fintype.card ι : K) ≠ 0 := by
    have : 0 < Fintype.card ι := Fintype.card_pos_iff.2 ⟨i⟩
    exact_mod_cast this.ne'
  have hct := ctl_of_candidate P X lin o h pl hctl
  unfold unitVarXS unitVarX
  rw [adjS_eq P X lin h part ks hn hc _ hR]
  rw [unitVarS_ctl P o h _ pl part ks v base hn hc hct hw hh hcl hb
    (fun r hr => hT r fun e => hr ((adjD_none P X lin h _ r).2 e)), div_self hι, one_mul]
  have := C193_difference_violated P X o h (adjD P X lin h (P.diff pl h)) part ks hn hc hct (Fintype.card ι) hι {d} inv th i
  rw [eq_add_of_sub_eq this]
  by_cases e : P.F i ≠ ⊤ ∧ P.dsq i = d
  · rw [if_pos e]
    have : ({d} : Finset K).filter (fun d => ¬(P.F i ≠ ⊤ ∧ P.dsq i = d)) = ∅ := by
      rw [filter_singleton, if_neg (not_not.2 e)]
    rw [this]; simp
  · rw [if_neg e]
    have : ({d} : Finset K).filter (fun d => ¬(P.F i ≠ ⊤ ∧ P.dsq i = d)) = {d} := by
      rw [filter_singleton, if_pos e]
    rw [this]; simp; ring

end

/-! ## Cases -/

/-- The hypotheses of C191-C193 hold for the panel `exB` with the covariate `exX`, spread over two workers. -/
example : RegressionOk exB.frame exX 1 (exB.frame.diff false 1) ∧
    (∀ r ∈ candidateRows exB.frame (exB.opt (1 / 10)) false 1,
      0 < ∑ s ∈ controls exB.frame (exB.opt (1 / 10)) false 1 r, exB.frame.w s.1 s.2) ∧
    candidateRows exB.frame (exB.opt (1 / 10)) false 1 ≠ ∅ ∧
    (∀ r : exB.frame.Row, exB.frame.diff false 1 r ≠ none → exB.frame.time r ≤ tGS exB.frame (fun i => i.1 % 2) r.1) := by
  unfold RegressionOk
  decide +kernel

/-- C193 (violated), concretely: same panel, same covariate, same estimate, another standard error. -/
theorem C193_standard_error_violated :
    let o := exB.opt (1 / 10)
    let part : Fin 4 → ℕ := fun i => i.1 % 2
    let E := adjD exB.frame exX lin1 1 (exB.frame.diff false 1)
    let ES := adjS exB.frame exX lin1 1 (exB.frame.diff false 1) part [1, 0]
    let th : ℚ → Fin 1 → ℚ := fun d => theta exB.frame exX lin1 1 (exB.frame.diff false 1) d
    estimateS exB.frame o 1 ES part [1, 0] 4 = some (estimateD exB.frame o 1 E) ∧
    plainSES exV 4 (unitVarXS exB.frame exX o 1 ES part [1, 0] exV (fun _ => (0 : ℕ)) 4 {0} th) ≠
      horizonSE exV (unitVarX exB.frame exX 1 o exV E {0} (fun _ => 0) th false) := by
  decide +kernel

/-- Two never-switchers with one complete row each and two covariates. -/
def exFew : Covs exP.frame (Fin 2) := fun j i k => if k.1 = 2 ∨ k.1 = 1 then some (if k.1 = 2 then i.1 + 2 * j.1 + 1 else 0) else none

/-- The solution of a 2 x 2 system. -/
def linFew (A : Matrix (Fin 2) (Fin 2) ℚ) (b : Fin 2 → ℚ) : Fin 2 → ℚ := fun j =>
  if j = 0 then (b 0 * A 1 1 - A 0 1 * b 1) / (A 0 0 * A 1 1 - A 0 1 * A 1 0)
  else (A 0 0 * b 1 - A 1 0 * b 0) / (A 0 0 * A 1 1 - A 0 1 * A 1 0)

/-- C191 (violated), concretely: the single machine does not adjust, the distributed program does. -/
theorem C191_example_violated :
    (∀ d, ((validRows exP.frame exFew 1 (exP.frame.diff false 1) (exP.frame.dsq d)).card = 2 ∧
      ((validRows exP.frame exFew 1 (exP.frame.diff false 1) (exP.frame.dsq d)).image Sigma.fst).card = 2)) ∧
    (∀ r, adjD exP.frame exFew linFew 1 (exP.frame.diff false 1) r = exP.frame.diff false 1 r) ∧
    ∃ r, adjS exP.frame exFew linFew 1 (exP.frame.diff false 1) (fun i => i.1) [0, 1, 2] r ≠ exP.frame.diff false 1 r := by
  decide +kernel

/-- A covariate that the second never-switcher lacks: one unit with complete rows. -/
def exLack : Covs exP.frame (Fin 1) := fun _ i k => if i.1 = 2 then none else some (![1, 4, 2, 8] k)

example : ((validRows exP.frame exLack 1 (exP.frame.diff false 1) 0).image Sigma.fst).card ≤ 1 ∧
    1 < ((regRows exP.frame (exP.frame.diff false 1) 0).image Sigma.fst).card ∧
    2 ≤ (validRows exP.frame exLack 1 (exP.frame.diff false 1) 0).card ∧
    ∃ r, adjS exP.frame exLack lin1 1 (exP.frame.diff false 1) (fun i => i.1) [0, 1, 2] r ≠
      adjD exP.frame exLack lin1 1 (exP.frame.diff false 1) r := by
  decide +kernel

end Verif.Inter
