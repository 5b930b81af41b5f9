import Verif.Dist.Model
import Verif.Boot.Model
import Mathlib.Tactic.Ring
import Mathlib.Tactic.Linarith
import Mathlib.Tactic.NormNum
import Mathlib.Algebra.Field.Rat
import Mathlib.Algebra.Order.Ring.Rat
import Mathlib.Data.Fin.VecNotation

/-!
# Partitioning and reduction order do not matter (C44), distributed regressions (C45)
-/

set_option linter.unusedSectionVars false
set_option linter.unusedSimpArgs false

namespace Verif.Dist

/-! ## Specification -/

section
variable {V : Type*} [AddCommMonoid V]

/-- What a reduction over possibly missing contributions should return: nothing if all are missing, otherwise the sum of
those that are present. -/
def totalOf (l : List (Option V)) : Option V :=
  if (l.filterMap id) = [] then none else some (l.filterMap id).sum

/-! ## Lemmas -/

theorem totalOf_nil : totalOf ([] : List (Option V)) = none := by simp [totalOf]

theorem totalOf_none_cons (l : List (Option V)) : totalOf (none :: l) = totalOf l := by simp [totalOf]

theorem optAdd_none_left (a : Option V) : optAdd none a = a := by cases a <;> rfl
theorem optAdd_none_right (a : Option V) : optAdd a none = a := by cases a <;> rfl

theorem optAdd_assoc (a b c : Option V) : optAdd (optAdd a b) c = optAdd a (optAdd b c) := by
  cases a <;> cases b <;> cases c <;> simp [optAdd, add_assoc]

theorem optAdd_comm (a b : Option V) : optAdd a b = optAdd b a := by
  cases a <;> cases b <;> simp [optAdd, add_comm]

theorem totalOf_append (l m : List (Option V)) : totalOf (l ++ m) = optAdd (totalOf l) (totalOf m) := by
  unfold totalOf
  rw [List.filterMap_append]
  generalize l.filterMap id = u
  generalize m.filterMap id = v
  by_cases h : u = [] <;> by_cases h' : v = [] <;> simp [h, h', optAdd, List.sum_append]

theorem totalOf_singleton (a : Option V) : totalOf [a] = a := by
  cases a <;> simp [totalOf]

theorem totalOf_cons (a : Option V) (l : List (Option V)) : totalOf (a :: l) = optAdd a (totalOf l) := by
  rw [← List.singleton_append, totalOf_append, totalOf_singleton]

theorem totalOf_perm {l m : List (Option V)} (h : l.Perm m) : totalOf l = totalOf m := by
  induction h with
  | nil => rfl
  | cons a _ ih => rw [totalOf_cons, totalOf_cons, ih]
  | swap a b l => simp only [totalOf_cons, ← optAdd_assoc, optAdd_comm a b]
  | trans _ _ ih1 ih2 => rw [ih1, ih2]

theorem foldl_optAdd (l : List (Option V)) (a : Option V) : l.foldl optAdd a = optAdd a (totalOf l) := by
  induction l generalizing a with
  | nil => simp [totalOf_nil, optAdd_none_right]
  | cons b l ih => rw [List.foldl_cons, ih, totalOf_cons, optAdd_assoc]

theorem gramStep_eq (a b : Option V) : gramStep a b = optAdd a b := by
  cases a <;> cases b <;> rfl

/-- Contribution of one partition: `None` when it holds no selected row, else the sum of a row statistic. -/
def contribution {R : Type*} (sel : R → Bool) (stat : R → V) (p : List R) : Option V :=
  if p.filter sel = [] then none else some ((p.filter sel).map stat).sum

theorem totalOf_contribution {R : Type*} (sel : R → Bool) (stat : R → V) (parts : List (List R)) :
    totalOf (parts.map (contribution sel stat)) = contribution sel stat parts.flatten := by
  induction parts with
  | nil => simp [totalOf_nil, contribution]
  | cons p ps ih =>
    rw [List.map_cons, totalOf_cons, ih]
    unfold contribution
    rw [List.flatten_cons, List.filter_append]
    generalize p.filter sel = u
    generalize ps.flatten.filter sel = v
    by_cases h : u = [] <;> by_cases h' : v = [] <;> simp [h, h', optAdd, List.sum_append]

/-! ## Trees -/

theorem RTree.eval_eq (t : RTree (Option V)) : t.eval optAdd = totalOf t.leaves := by
  induction t with
  | leaf v => simp [RTree.eval, RTree.leaves, totalOf_singleton]
  | node l r ihl ihr => simp [RTree.eval, RTree.leaves, totalOf_append, ihl, ihr]

theorem reduceGroup_eq {l : List (Option V)} (h : l ≠ []) : reduceGroup optAdd l = some (totalOf l) := by
  cases l with
  | nil => exact absurd rfl h
  | cons a l => rw [reduceGroup, foldl_optAdd, totalOf_cons]

theorem chunks_flatten {W : Type*} (s : ℕ) (hs : 0 < s) (fuel : ℕ) (l : List W) (h : l.length ≤ fuel) :
    (chunks s fuel l).flatten = l ∧ (∀ c ∈ chunks s fuel l, c ≠ []) := by
  induction fuel generalizing l with
  | zero =>
    have : l = [] := List.length_eq_zero_iff.1 (by omega)
    subst this; simp [chunks]
  | succ fuel ih =>
    cases l with
    | nil => simp [chunks]
    | cons a l =>
      obtain ⟨h1, h2⟩ := ih ((a :: l).drop s) (by simp only [List.length_drop]; omega)
      rw [chunks.eq_3 _ _ _ (by simp)]
      refine ⟨?_, ?_⟩
      · rw [List.flatten_cons, h1, List.take_append_drop]
      · intro c hc
        rcases List.mem_cons.1 hc with rfl | hc
        · obtain ⟨s, rfl⟩ : ∃ s', s = s' + 1 := ⟨s - 1, by omega⟩
          simp
        · exact h2 c hc

theorem chunks_length {W : Type*} (s : ℕ) (hs : 2 ≤ s) (fuel : ℕ) (l : List W) (h : l.length ≤ fuel) :
    2 * (chunks s fuel l).length ≤ l.length + 1 := by
  induction fuel generalizing l with
  | zero =>
    have : l = [] := List.length_eq_zero_iff.1 (by omega)
    subst this; simp [chunks]
  | succ fuel ih =>
    cases l with
    | nil => simp [chunks]
    | cons a l =>
      have := ih ((a :: l).drop s) (by simp only [List.length_drop]; omega)
      rw [chunks.eq_3 _ _ _ (by simp)]
      simp only [List.length_drop, List.length_cons] at this ⊢
      by_cases hl : l.length + 1 ≤ s
      · have e : (a :: l).drop s = [] := List.drop_eq_nil_iff.2 (by simpa using hl)
        rw [e]
        cases fuel <;> simp [chunks]
      · omega

theorem treePass_eq (s : ℕ) (hs : 0 < s) (l : List (Option V)) :
    treePass optAdd s l = (chunks s l.length l).map totalOf := by
  unfold treePass
  have h := (chunks_flatten s hs l.length l le_rfl).2
  generalize chunks s l.length l = cs at h
  induction cs with
  | nil => rfl
  | cons c cs ih =>
    rw [List.filterMap_cons, reduceGroup_eq (h c (by simp)), List.map_cons, ih fun d hd => h d (by simp [hd])]

theorem totalOf_map_totalOf (cs : List (List (Option V))) : totalOf (cs.map totalOf) = totalOf cs.flatten := by
  induction cs with
  | nil => rfl
  | cons c cs ih => rw [List.map_cons, totalOf_cons, ih, List.flatten_cons, totalOf_append]

/-! ## C44 -/

/-- C44: Dask's `tree_reduce` terminates and returns the sum of the present contributions, for every fan-in of at least
two and every non-empty list of partition results. -/
theorem C44_tree_reduce (s : ℕ) (hs : 2 ≤ s) (l : List (Option V)) (hl : l ≠ []) :
    treeReduce optAdd s l.length l = some (totalOf l) := by
  have gen : ∀ fuel (l : List (Option V)), l ≠ [] → l.length ≤ fuel + 1 → treeReduce optAdd s fuel l = some (totalOf l) := by
    intro fuel
    induction fuel with
    | zero =>
      intro l hl hlen
      obtain ⟨a, rfl⟩ : ∃ a, l = [a] := List.length_eq_one_iff.1 (by
        have := List.length_pos_iff.2 hl; omega)
      simp [treeReduce, totalOf_singleton]
    | succ fuel ih =>
      intro l hl hlen
      match l, hl with
      | [a], _ => simp [treeReduce, totalOf_singleton]
      | a :: b :: l, _ =>
        rw [treeReduce.eq_4 _ _ _ _ (by simp) (by simp), treePass_eq s (by omega)]
        have hc := chunks_length s hs _ (a :: b :: l) le_rfl
        have hf := (chunks_flatten s (by omega) _ (a :: b :: l) le_rfl).1
        rw [ih, totalOf_map_totalOf, hf]
        · intro h
          rw [List.map_eq_nil_iff] at h
          rw [h] at hf
          simp at hf
        · rw [List.length_map]
          simp only [List.length_cons] at hc hlen ⊢
          omega
  exact gen _ l hl (by omega)

example : treeReduce optAdd 2 5 [some (1 : ℤ), none, some 3, none, some 5] = some (some 9) := by decide

/-- C44: splitting the rows over partitions in any way (any number of partitions, any order of rows, empty partitions or
partitions without relevant rows), and combining the partition sums in any order by any binary tree, gives the statistic
of all rows at once; `stat` is any per-row statistic (Gram matrices, right-hand sides, counts, weighted sums). -/
theorem C44_any_partition_any_tree {R : Type*} (sel : R → Bool) (stat : R → V) (rows : List R) (parts : List (List R))
    (hp : parts.flatten.Perm rows) (t : RTree (Option V)) (ht : t.leaves.Perm (parts.map (contribution sel stat))) :
    t.eval optAdd = if rows.filter sel = [] then none else some ((rows.filter sel).map stat).sum := by
  rw [RTree.eval_eq, totalOf_perm ht, totalOf_contribution]
  unfold contribution
  have h := hp.filter sel
  have h0 : parts.flatten.filter sel = [] ↔ rows.filter sel = [] :=
    ⟨fun e => (e ▸ h).nil_eq.symm, fun e => (e ▸ h).eq_nil⟩
  by_cases e : rows.filter sel = []
  · rw [if_pos e, if_pos (h0.2 e)]
  · rw [if_neg e, if_neg (fun c => e (h0.1 c)), (h.map stat).sum_eq]

example : (RTree.node (.leaf (some (3 : ℤ))) (.node (.leaf none) (.leaf (some 1)))).eval optAdd = some 4 ∧
    [[(1 : ℤ)], [], [3]].flatten.Perm [3, 1] := by decide

/-- C44: the drivers' left-to-right reductions (`_reduce_gram_list`, repeated `sum_global_stats`) are such trees. -/
theorem C44_driver_reductions (l : List (Option V)) :
    reduceGramList l = totalOf l ∧ l.foldl optAdd none = totalOf l := by
  constructor
  · unfold reduceGramList
    have : (gramStep : Option V → Option V → Option V) = optAdd := by funext a b; exact gramStep_eq a b
    rw [this, foldl_optAdd, optAdd_none_left]
  · rw [foldl_optAdd, optAdd_none_left]

example : reduceGramList [none, some (2 : ℤ), none, some 5] = some 7 := by decide

end

/-! ## C45 -/

section Reg
variable {κ K : Type*} [Fintype κ] [Field K]

theorem gramOf_eq {R : Type*} (x : R → κ → K) (W z : R → K) (p : List R) :
    gramOf x W z p = (p.map fun r => ((fun a b => (x r a * W r) * x r b, fun a => (x r a * W r) * z r, 1) : Triple κ K)).sum := by
  induction p with
  | nil => rfl
  | cons r p ih =>
    rw [List.map_cons, List.sum_cons, ← ih]
    unfold gramOf
    refine Prod.ext ?_ (Prod.ext ?_ ?_)
    · funext a b; simp
    · funext a; simp
    · simp [add_comm]

/-- The distributed Gram triple, for every partitioning. -/
theorem totalOf_gram {R : Type*} (sel : R → Bool) (x : R → κ → K) (W z : R → K) (parts : List (List R)) :
    totalOf (parts.map fun p => if p.filter sel = [] then none else some (gramOf x W z (p.filter sel))) =
      if parts.flatten.filter sel = [] then none else some (gramOf x W z (parts.flatten.filter sel)) := by
  have := totalOf_contribution sel
    (fun r => ((fun a b => (x r a * W r) * x r b, fun a => (x r a * W r) * z r, 1) : Triple κ K)) parts
  have hc : ∀ p : List R, contribution sel
      (fun r => ((fun a b => (x r a * W r) * x r b, fun a => (x r a * W r) * z r, 1) : Triple κ K)) p =
      if p.filter sel = [] then none else some (gramOf x W z (p.filter sel)) := by
    intro p; unfold contribution; rw [← gramOf_eq]
  simp only [← hc]
  exact this

/-- C45: for every partitioning of the rows, every solver, link function and stopping rule, and any number of iterations,
the distributed logistic IRLS produces the same sequence of iterates, the same final coefficients and the same failures as
the single-machine fit on all rows.  `reduce` is any reduction that sums the present contributions (C44). -/
theorem C45_irls (reduce : List (Option (Triple κ K)) → Option (Triple κ K)) (hred : ∀ l, l ≠ [] → reduce l = totalOf l)
    (solve : Solver κ K) (mu : K → K) (stop : (κ → K) → (κ → K) → Bool) (parts : List (List (Obs κ K)))
    (hne : parts.flatten ≠ []) (maxIter : ℕ) (β : κ → K) :
    irlsDist reduce solve mu stop parts maxIter β = irlsLocal solve mu stop parts.flatten maxIter β := by
  have hp : parts ≠ [] := by rintro rfl; simp at hne
  induction maxIter generalizing β with
  | zero => rfl
  | succ n ih =>
    have hg : reduce (parts.map (irlsGram mu β)) = some (gramOf Obs.x (irlsW mu β) (irlsZ mu β) parts.flatten) := by
      rw [hred _ (by simpa using hp)]
      have := totalOf_gram (fun _ => true) Obs.x (irlsW mu β) (irlsZ mu β) parts
      simp only [List.filter_true, if_neg hne] at this
      exact this
    rw [irlsDist, hg, irlsLocal]
    have e : (solve (gramOf Obs.x (irlsW mu β) (irlsZ mu β) parts.flatten).1
        (gramOf Obs.x (irlsW mu β) (irlsZ mu β) parts.flatten).2.1) =
        solve (fun a b => (parts.flatten.map fun r => r.x a * (irlsW mu β r * r.x b)).sum)
          (fun a => (parts.flatten.map fun r => r.x a * (irlsW mu β r * irlsZ mu β r)).sum) := by
      simp only [gramOf, mul_assoc]
    simp only [e]
    split
    · rfl
    · simp only [ih]

/-- The reductions used by the drivers satisfy the hypothesis of `C45_irls`. -/
theorem C45_reductions_admissible (l : List (Option (Triple κ K))) (hl : l ≠ []) (s : ℕ) (hs : 2 ≤ s) :
    reduceGramList l = totalOf l ∧ (treeReduce optAdd s l.length l).join = totalOf l :=
  ⟨(C44_driver_reductions l).1, by rw [C44_tree_reduce s hs l hl]; rfl⟩

/-- C45: the result depends on the rows only, not on how they are split or ordered. -/
theorem C45_irls_partition_invariant (solve : Solver κ K) (mu : K → K) (stop : (κ → K) → (κ → K) → Bool)
    (parts parts' : List (List (Obs κ K))) (hperm : parts.flatten.Perm parts'.flatten) (hne : parts.flatten ≠ [])
    (maxIter : ℕ) (β : κ → K) :
    irlsDist reduceGramList solve mu stop parts maxIter β = irlsDist reduceGramList solve mu stop parts' maxIter β := by
  have hne' : parts'.flatten ≠ [] := fun h => hne (by rw [h] at hperm; exact hperm.eq_nil)
  have hred : ∀ l : List (Option (Triple κ K)), l ≠ [] → reduceGramList l = totalOf l :=
    fun l _ => (C44_driver_reductions l).1
  rw [C45_irls _ hred _ _ _ _ hne, C45_irls _ hred _ _ _ _ hne']
  clear hne hne'
  induction maxIter generalizing β with
  | zero => rfl
  | succ n ih =>
    have e1 : ∀ f : Obs κ K → K, (parts.flatten.map f).sum = (parts'.flatten.map f).sum := fun f => (hperm.map f).sum_eq
    simp only [irlsLocal, e1, ih]

example : ([[⟨fun _ : Fin 1 => (1 : ℚ), 1, 1⟩], [⟨fun _ => 2, 0, 1⟩]] : List (List (Obs (Fin 1) ℚ))).flatten ≠ [] := by
  simp

/-- A two-row fit with one covariate split over two partitions: two iterations on either side. -/
example :
    let solve : Solver (Fin 1) ℚ := fun A b => if A 0 0 = 0 then none else some fun _ => b 0 / A 0 0
    (irlsDist reduceGramList solve (fun e => 1 / 2 + e / 8) (fun _ _ => false)
      [[⟨fun _ => 1, 1, 1⟩], [], [⟨fun _ => 1, 0, 3⟩]] 2 (fun _ => 0)).map (fun s => s.1.map (· 0)) =
    some [-1, -23 / 15] := by
  decide +kernel

/-- C45: distributed weighted least squares equals the single-machine one for every partitioning, and raises exactly when
no selected row exists or the system is singular. -/
theorem C45_wls {R : Type*} (solve : Solver κ K) (sel : R → Bool) (x : R → κ → K) (y w : R → K) (parts : List (List R)) :
    wlsDist reduceGramList solve sel x y w parts =
      if parts.flatten.filter sel = [] then none else wlsLocal solve sel x y w parts.flatten := by
  unfold wlsDist
  rw [(C44_driver_reductions _).1, totalOf_gram]
  by_cases h : parts.flatten.filter sel = []
  · simp [h]
  · simp only [if_neg h]
    rfl

example :
    let solve : Solver (Fin 1) ℚ := fun A b => if A 0 0 = 0 then none else some fun _ => b 0 / A 0 0
    (wlsDist reduceGramList solve (fun r : ℚ × ℚ => decide (r.1 ≠ 0)) (fun r _ => r.1) Prod.snd (fun _ => 1)
      [[(1, 2), (0, 9)], [], [(0, 4)], [(3, 1)]]).map (· 0) = some (1 / 2) := by
  decide +kernel

end Reg

/-! ## Distributed multiplier bootstrap -/

section Boot
variable {K : Type*} [Field K] {κ : Type*}

/-- C44: for every split of the units into partitions, the distributed draw (sum of the partition draws over `n`) is the
single-machine draw with the concatenated multipliers. -/
theorem C44_bootstrap_draw (m1 m2 : K) (parts : List (List (κ → K) × List Bool))
    (hlen : ∀ p ∈ parts, p.1.length = p.2.length) (j : κ) :
    distDraw m1 m2 parts ((parts.map Prod.fst).flatten.length : K) j =
      Boot.drawPy m1 m2 (parts.map Prod.fst).flatten (parts.map Prod.snd).flatten j := by
  unfold distDraw Boot.drawPy
  congr 1
  induction parts with
  | nil => rfl
  | cons p ps ih =>
    simp only [List.map_cons, List.sum_cons, List.flatten_cons, List.map_append]
    rw [ih fun q hq => hlen q (by simp [hq]), List.zipWith_append, List.sum_append]
    · rfl
    · simpa using hlen p (by simp)

example : distDraw (-1) 2 [([fun _ : Fin 1 => (1 : ℚ)], [true]), ([fun _ => 2, fun _ => 5], [false, true])] 3 0 = -2 / 3 := by
  decide +kernel

end Boot

end Verif.Dist
