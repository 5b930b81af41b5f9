import Verif.Honest.CompiledModel
import Verif.Honest.Relative

/-!
# C64: compiled and interpreted helpers
-/

set_option linter.unusedSectionVars false
set_option linter.unusedSimpArgs false

namespace Verif.Honest

open Finset

variable {K : Type*} [Field K] [LinearOrder K] [IsStrictOrderedRing K]

theorem setSlice_121 (r : ℕ) : (setSlice r [1, -2, 1] fun _ => (0 : K)) = set121 r := setSlice_three r 1 (-2) 1 _

/-- C64.  The matrix constructors agree, for all dimensions. -/
theorem C64_matrices (p q m total : ℕ) :
    (firstDiffNb p q : List (ℕ → K)) = firstDiffPy p q ∧
    (secondDiffNb m total : List (ℕ → K)) = secondDiffPy m total ∧
    (boundsSecondDiffNb p q : List (ℕ → K)) = boundsSecondDiffPy p q ∧
    (monotonicityNb p q : List (ℕ → K)) = monotonicityPy p q := by
  refine ⟨?_, ?_, ?_, ?_⟩
  · unfold firstDiffNb firstDiffPy
    exact List.map_congr_left fun r _ => (setSlice_two r (-1) 1 _).symm
  · unfold secondDiffNb secondDiffPy
    exact List.map_congr_left fun r _ => by rw [setSlice_121]
  · unfold boundsSecondDiffNb boundsSecondDiffPy
    congr 1
    · exact List.map_congr_left fun r _ => (setSlice_121 r).symm
    · exact List.map_congr_left fun r _ => (setSlice_121 _).symm
  · unfold monotonicityNb monotonicityPy
    refine List.map_congr_left fun r hr => ?_
    split_ifs with h1 h2 h3
    · exact (setSlice_two r 1 (-1) _).symm
    · rfl
    · rfl
    · rw [setSlice_two, show r - 1 + 1 = r by omega]

theorem findRowsInner_eq (A : ℕ → ℕ → K) (i : ℕ) (idx rows : List ℕ) :
    findRowsInner A i idx rows = if idx.any (fun j => decide (A i j ≠ 0)) then rows ++ [i] else rows := by
  induction idx with
  | nil => rfl
  | cons j js ih =>
    unfold findRowsInner
    by_cases h : A i j ≠ 0
    · rw [if_pos h]; simp [h]
    · rw [if_neg h, ih]
      have : (j :: js).any (fun j => decide (A i j ≠ 0)) = js.any fun j => decide (A i j ≠ 0) := by
        simp [List.any_cons, h]
      rw [this]

theorem foldl_filter (P : ℕ → Bool) (l acc : List ℕ) :
    l.foldl (fun rows i => if P i then rows ++ [i] else rows) acc = acc ++ l.filter P := by
  induction l generalizing acc with
  | nil => simp
  | cons x xs ih =>
    rw [List.foldl_cons, ih]
    cases h : P x <;> simp [List.filter_cons, h]

/-- C64.  `find_rows_with_post_period_values` agrees. -/
theorem C64_find_rows (m : ℕ) (A : ℕ → ℕ → K) (idx : List ℕ) : findRowsNb m A idx = findRowsPy m A idx := by
  unfold findRowsNb findRowsPy
  have : (fun (rows : List ℕ) i => findRowsInner A i idx rows) =
      fun rows i => if (fun i => idx.any fun j => decide (A i j ≠ 0)) i then rows ++ [i] else rows := by
    funext rows i; rw [findRowsInner_eq]
  simp only [this]
  rw [foldl_filter, List.nil_append]
  simp only [List.length_eq_zero_iff]

theorem foldl_sum (f : ℕ → K) (n : ℕ) (a : K) : (List.range n).foldl (fun s j => s + f j) a = a + ∑ j ∈ range n, f j := by
  induction n with
  | zero => simp
  | succ n ih => rw [List.range_succ, List.foldl_append, ih, sum_range_succ]; simp [add_assoc]

/-- C64.  Element-wise and bilinear helpers agree: `safe_divide`, `quadratic_form`, `prepare_theta_grid_y_values`. -/
theorem C64_elementwise (tol x y : K) (n : ℕ) (v : ℕ → K) (A : ℕ → ℕ → K) (w theta : ℕ → K) (i j : ℕ) :
    safeDivideNb tol x y = safeDividePy tol x y ∧ quadNb n v A = quadPy n v A ∧
    thetaGridNb w v theta i j = thetaGridPy w v theta i j := by
  refine ⟨?_, ?_, ?_⟩
  · unfold safeDivideNb safeDividePy
    by_cases h : |y| < tol
    · rw [if_pos h, if_pos (not_le.2 h)]
    · rw [if_neg h, if_neg (by simpa using not_lt.1 h), if_pos (not_lt.1 h)]
  · unfold quadNb quadPy
    have : (fun (acc : K) i => acc + v i * (List.range n).foldl (fun s j => s + A i j * v j) 0) =
        fun acc i => acc + v i * ∑ j ∈ range n, A i j * v j := by
      funext acc i
      rw [foldl_sum, zero_add]
    rw [this, foldl_sum (fun i => v i * ∑ j ∈ range n, A i j * v j), zero_add]
    simp only [mul_sum, sum_mul]
    rw [sum_comm]
    exact sum_congr rfl fun a _ => sum_congr rfl fun b _ => by ring
  · unfold thetaGridNb thetaGridPy
    ring

theorem sel_foldl_py (sel : List ℕ) (k : ℕ) (m : ℕ → ℕ → K) (i j : ℕ) :
    (sel.zipIdx k).foldl (fun m (p : ℕ × ℕ) => fun a b => if a = p.2 ∧ b = p.1 then 1 else m a b) m i j =
      if k ≤ i ∧ sel[i - k]? = some j then 1 else m i j := by
  induction sel generalizing k m with
  | nil => simp
  | cons x xs ih =>
    rw [List.zipIdx_cons, List.foldl_cons, ih]
    by_cases h : i = k
    · subst h
      have : ¬ (i + 1 ≤ i ∧ xs[i - (i + 1)]? = some j) := by omega
      rw [if_neg this]
      simp only [true_and, le_refl, Nat.sub_self, List.getElem?_cons_zero, Option.some.injEq]
      by_cases h2 : j = x
      · rw [if_pos h2, if_pos h2.symm]
      · rw [if_neg h2, if_neg (fun e => h2 e.symm)]
    · by_cases h2 : k ≤ i
      · have e : i - k = (i - (k + 1)) + 1 := by omega
        rw [e, List.getElem?_cons_succ]
        have : (k + 1 ≤ i ∧ xs[i - (k + 1)]? = some j) ↔ (k ≤ i ∧ xs[i - (k + 1)]? = some j) := by
          constructor
          · rintro ⟨_, b⟩; exact ⟨h2, b⟩
          · rintro ⟨_, b⟩; exact ⟨by omega, b⟩
        simp only [this, h, false_and, if_false]
      · have h3 : ¬ k + 1 ≤ i := by omega
        simp [h, h2, h3]

theorem sel_foldl_nb (sel : List ℕ) (n : ℕ) (i j : ℕ) :
    (List.range n).foldl (fun m k => fun a b => if a = k ∧ b = sel.getD k 0 then 1 else m a b) (fun _ _ => (0 : K)) i j =
      if i < n ∧ sel.getD i 0 = j then 1 else 0 := by
  induction n with
  | zero => simp
  | succ n ih =>
    rw [List.range_succ, List.foldl_append]
    simp only [List.foldl_cons, List.foldl_nil]
    rw [ih]
    by_cases h : i = n
    · subst h
      simp only [true_and, lt_irrefl, false_and, if_false, Nat.lt_succ_self]
      by_cases h2 : j = sel.getD i 0
      · rw [if_pos h2, if_pos h2.symm]
      · rw [if_neg h2, if_neg (fun e => h2 e.symm)]
    · simp only [h, false_and, if_false]
      have : i < n + 1 ↔ i < n := by omega
      simp only [this]

/-- C64.  `selection_matrix` agrees, and is the selection matrix. -/
theorem C64_selection (sel : List ℕ) (i j : ℕ) :
    (selectionNb sel i j : K) = selectionPy sel i j ∧ (selectionPy sel i j : K) = if sel[i]? = some j then 1 else 0 := by
  unfold selectionNb selectionPy
  rw [sel_foldl_py, sel_foldl_nb]
  have : (i < sel.length ∧ sel.getD i 0 = j) ↔ (0 ≤ i ∧ sel[i - 0]? = some j) := by
    rw [Nat.sub_zero]
    by_cases h : i < sel.length
    · simp [List.getElem?_eq_getElem h, List.getD, h]
    · simp [List.getElem?_eq_none (by omega : sel.length ≤ i), h]
  simp only [this, Nat.sub_zero, Nat.zero_le, true_and, and_self]

theorem keepCols_eq (p q : ℕ) (row : ℕ → K) (c : ℕ) (hc : c < p + q) : keepCols p (p + q + 1) row c = delCol p row c := by
  unfold keepCols delCol
  have hr : (List.range (p + q + 1)).filter (· ≠ p) = List.range p ++ (List.range q).map (fun k => p + 1 + k) := by
    rw [show p + q + 1 = p + (1 + q) by ring, List.range_add, List.filter_append]
    congr 1
    · rw [List.filter_eq_self]
      intro a ha
      have := List.mem_range.1 ha
      simp; omega
    · rw [List.range_add, List.map_append, List.filter_append]
      have h1 : List.filter (fun x => decide (x ≠ p)) (List.map (fun x => p + x) (List.range 1)) = [] := by simp
      rw [h1, List.nil_append, List.map_map, List.filter_eq_self.2]
      · exact List.map_congr_left fun k _ => by simp [add_assoc]
      · intro a ha
        simp only [List.mem_map, Function.comp] at ha
        obtain ⟨k, _, rfl⟩ := ha
        simp
  rw [hr]
  by_cases h : c < p
  · rw [if_pos h]
    congr 1
    simp [List.getD, List.getElem?_append_left, h]
  · rw [if_neg h]
    congr 1
    have h2 : c - p < q := by omega
    simp [List.getD, List.getElem?_append_right, not_lt.1 h, h2]
    omega

/-- C64.  `create_sdrm_constraint_matrix` agrees, entry by entry. -/
theorem C64_sdrm (tol : K) (p q : ℕ) (hp : 2 ≤ p) (mbar : K) (s : ℤ) (b : Bool) :
    (sdrmNb tol p q mbar s b).map (fun a => (List.range (p + q)).map a) =
      (sdrmMatrix tol p q mbar s b).map (fun a => (List.range (p + q)).map a) := by
  unfold sdrmNb sdrmMatrix
  have hlen : p - 1 + q = p + q - 1 := by omega
  simp only [ubRows_eq, hlen, setSlice_121]
  rw [absStack_eq]
  unfold dropZeroRowsSq
  simp only [foldl_sum, zero_add, List.map_map]
  refine List.map_congr_left fun a _ => ?_
  refine List.map_congr_left fun c hc => ?_
  exact keepCols_eq p q a c (List.mem_range.1 hc)

/-! ### Truncation bounds -/

theorem foldl_opt (op : K → K → K) (f : ℕ → K) (l : List ℕ) (x : K) :
    (l.map fun i => some (f i)).foldl (fun a b => a.bind fun u => b.map fun w => op u w) (some x) =
      some ((l.map f).foldl op x) := by
  induction l generalizing x with
  | nil => rfl
  | cons y ys ih => simp only [List.map_cons, List.foldl_cons, Option.bind_some, Option.map_some]; exact ih _

/-- The bound accumulated over a list of values. -/
def accum (op : K → K → K) : List K → Bnd K → Bnd K
  | [], b => b
  | x :: xs, b => accum op xs (b.update op x)

theorem accum_fin (op : K → K → K) (l : List K) (x : K) : accum op l (Bnd.fin x) = Bnd.fin (l.foldl op x) := by
  induction l generalizing x with
  | nil => rfl
  | cons y ys ih => exact ih _

theorem npReduce_some (op : K → K → K) (f : ℕ → K) (l : List ℕ) :
    npReduce op (l.map fun i => some (f i)) = accum op (l.map f) Bnd.infinite := by
  cases l with
  | nil => rfl
  | cons x xs =>
    simp only [List.map_cons, npReduce, foldl_opt]
    show _ = accum op (xs.map f) (Bnd.fin (f x))
    rw [accum_fin]

theorem boundsNb_loop (tol : K) (Ac rhs : ℕ → K) (l : List ℕ) (b1 b2 : Bnd K) :
    l.foldl (fun acc i =>
      if tol < |Ac i| then
        if Ac i < 0 then (acc.1.update max (rhs i / Ac i), acc.2)
        else (acc.1, acc.2.update min (rhs i / Ac i))
      else acc) (b1, b2) =
    (accum max ((l.filter fun i => decide (tol < |Ac i|) && decide (Ac i < 0)).map fun i => rhs i / Ac i) b1,
      accum min ((l.filter fun i => decide (tol < |Ac i|) && decide (¬ Ac i < 0)).map fun i => rhs i / Ac i) b2) := by
  induction l generalizing b1 b2 with
  | nil => rfl
  | cons x xs ih =>
    rw [List.foldl_cons]
    by_cases h1 : tol < |Ac x|
    · by_cases h2 : Ac x < 0
      · simp only [h1, h2, if_true, ih, List.filter_cons, decide_true, Bool.and_self, List.map_cons, accum, not_true,
          decide_false, Bool.and_false, Bool.false_eq_true, if_false]
      · simp only [h1, h2, if_true, if_false, ih, List.filter_cons, decide_true, Bool.and_self, List.map_cons, accum, not_false_eq_true,
          decide_false, Bool.and_false, Bool.false_eq_true]
    · simp only [h1, if_false, ih, List.filter_cons, decide_false, Bool.false_and, Bool.false_eq_true]

/-- C64.  `compute_bounds` agrees when `eta' sigma eta` passes the threshold and no coefficient `(A c)_i` is non-zero below it. -/
theorem C64_compute_bounds (tol : K) (h0 : 0 ≤ tol) (n m : ℕ) (eta : ℕ → K) (sigma A : ℕ → ℕ → K) (b z : ℕ → K)
    (h1 : tol ≤ |etaSigmaEta n eta sigma|)
    (h2 : ∀ i < m, ∑ j ∈ range n, A i j * (sigmaEta n eta sigma j / etaSigmaEta n eta sigma) = 0 ∨
      tol < |∑ j ∈ range n, A i j * (sigmaEta n eta sigma j / etaSigmaEta n eta sigma)|) :
    computeBoundsNb tol n m eta sigma A b z = computeBoundsPy tol n m eta sigma A b z := by
  unfold computeBoundsNb computeBoundsPy
  rw [if_neg (not_lt.2 h1)]
  congr 1
  have key : ∀ Ac rhs : ℕ → K, (∀ i < m, Ac i = 0 ∨ tol < |Ac i|) → boundsNb tol m Ac rhs = boundsPy tol m Ac rhs := by
    intro Ac rhs h2
    unfold boundsNb boundsPy
    rw [boundsNb_loop]
    have f1 : ((List.range m).filter fun i => decide (tol < |Ac i|) && decide (Ac i < 0)) =
        (List.range m).filter fun i => decide (Ac i < 0) := by
      refine List.filter_congr fun i hi => ?_
      rcases h2 i (List.mem_range.1 hi) with h | h
      · simp [h]
      · simp [h]
    have f2 : ((List.range m).filter fun i => decide (tol < |Ac i|) && decide (¬ Ac i < 0)) =
        (List.range m).filter fun i => decide (0 < Ac i) := by
      refine List.filter_congr fun i hi => ?_
      rcases h2 i (List.mem_range.1 hi) with h | h
      · simp [h, not_lt.2 h0]
      · have hne : Ac i ≠ 0 := by
          rintro e; rw [e, abs_zero] at h; exact absurd (lt_of_le_of_lt h0 h) (lt_irrefl _)
        have : ¬ Ac i < 0 ↔ 0 < Ac i := ⟨fun h => lt_of_le_of_ne (not_lt.1 h) hne.symm, fun h => not_lt.2 h.le⟩
        simp [h, this]
    rw [f1, f2]
    dsimp only
    have m1 : ∀ (P : ℕ → Prop) [DecidablePred P], (∀ i < m, P i → Ac i ≠ 0) →
        (((List.range m).filter fun i => decide (P i)).map fun i => if tol < |Ac i| then some (rhs i / Ac i) else none) =
          ((List.range m).filter fun i => decide (P i)).map fun i => some (rhs i / Ac i) := by
      intro P _ hP
      refine List.map_congr_left fun i hi => ?_
      rw [List.mem_filter, List.mem_range] at hi
      rcases h2 i hi.1 with h | h
      · exact absurd h (hP i hi.1 (by simpa using hi.2))
      · rw [if_pos h]
    rw [m1 (fun i => Ac i < 0) (fun i _ h => h.ne), m1 (fun i => 0 < Ac i) (fun i _ h => h.ne'), npReduce_some, npReduce_some]
  exact key _ _ h2

/-- C64 (violated).  A coefficient `0 < |(A c)_i| <= tol`: the interpreted version returns NaN (and NaN poisons the whole
maximum), the compiled one ignores the row.  For every threshold, dimension and data with exactly such a coefficient in one
row of a one-row system. -/
theorem C64_compute_bounds_violated (tol : K) (n : ℕ) (eta : ℕ → K) (sigma A : ℕ → ℕ → K) (b z : ℕ → K)
    (h1 : tol ≤ |etaSigmaEta n eta sigma|)
    (h2 : ∑ j ∈ range n, A 0 j * (sigmaEta n eta sigma j / etaSigmaEta n eta sigma) < 0)
    (h3 : |∑ j ∈ range n, A 0 j * (sigmaEta n eta sigma j / etaSigmaEta n eta sigma)| ≤ tol) :
    computeBoundsPy tol n 1 eta sigma A b z = some (Bnd.nan, Bnd.infinite) ∧
    computeBoundsNb tol n 1 eta sigma A b z = some (Bnd.infinite, Bnd.infinite) := by
  constructor
  · unfold computeBoundsPy boundsPy
    rw [if_neg (not_lt.2 h1)]
    have : ¬ (0 : K) < ∑ j ∈ range n, A 0 j * (sigmaEta n eta sigma j / etaSigmaEta n eta sigma) := not_lt.2 h2.le
    simp [List.filter_cons, h2, this, npReduce, not_lt.2 h3, List.range_succ]
  · unfold computeBoundsNb boundsNb
    simp [List.range_succ, not_lt.2 h3]

/-- C64 (violated).  Below the threshold for `eta' sigma eta` the interpreted version raises and the compiled one returns
bounds. -/
theorem C64_threshold_violated (tol : K) (n m : ℕ) (eta : ℕ → K) (sigma A : ℕ → ℕ → K) (b z : ℕ → K)
    (h1 : |etaSigmaEta n eta sigma| < tol) :
    computeBoundsPy tol n m eta sigma A b z = none ∧ computeBoundsNb tol n m eta sigma A b z ≠ none := by
  constructor
  · unfold computeBoundsPy
    rw [if_pos h1]
  · unfold computeBoundsNb
    simp

/-- C64.  `clip_values` agrees whenever the bounds are ordered. -/
theorem C64_clip (x lower upper : K) (h : lower ≤ upper) : clipNb x lower upper = clipPy x lower upper := by
  unfold clipNb clipPy
  by_cases h1 : x < lower
  · rw [if_pos h1, max_eq_right h1.le, min_eq_right h]
  · rw [if_neg h1, max_eq_left (not_lt.1 h1)]
    by_cases h2 : upper < x
    · rw [if_pos h2, min_eq_left h2.le]
    · rw [if_neg h2, min_eq_right (not_lt.1 h2)]

/-- C64 (violated).  With `lower > upper` every `x < lower` is clipped to `upper` by numpy and to `lower` by the compiled
version. -/
theorem C64_clip_violated (x lower upper : K) (h : upper < lower) (hx : x < lower) :
    clipPy x lower upper = upper ∧ clipNb x lower upper = lower := by
  unfold clipNb clipPy
  rw [if_pos hx, max_eq_right hx.le, min_eq_left h.le]
  exact ⟨rfl, rfl⟩

/-- Concrete inputs for the hypotheses above: `n = 1`, `eta = 1`, `sigma = 1`. -/
example : (1 / 10 ^ 10 : ℚ) ≤ |etaSigmaEta 1 (fun _ => 1) (fun _ _ => 1)| ∧
    (∑ j ∈ range 1, (fun (_ _ : ℕ) => (-1 / 10 ^ 11 : ℚ)) 0 j *
      (sigmaEta 1 (fun _ => (1 : ℚ)) (fun _ _ => 1) j / etaSigmaEta 1 (fun _ => 1) (fun _ _ => 1)) < 0) ∧
    computeBoundsNb (1 / 10 ^ 10 : ℚ) 1 2 (fun _ => 1) (fun _ _ => 1) (fun i _ => if i = 0 then 2 else -1) (fun _ => 4) (fun _ => 0) =
      some (Bnd.fin (-4), Bnd.fin 2) ∧
    computeBoundsPy (1 / 10 ^ 10 : ℚ) 1 2 (fun _ => 1) (fun _ _ => 1) (fun i _ => if i = 0 then 2 else -1) (fun _ => 4) (fun _ => 0) =
      some (Bnd.fin (-4), Bnd.fin 2) := by
  refine ⟨?_, ?_, ?_, ?_⟩
  · norm_num [etaSigmaEta, sigmaEta]
  · norm_num [etaSigmaEta, sigmaEta]
  · decide +kernel
  · decide +kernel

example : findRowsNb 3 (fun i j => if i = 1 ∧ j = 2 then (5 : ℚ) else 0) [2, 3] = some [1] := by decide +kernel

end Verif.Honest
