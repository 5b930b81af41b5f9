import Verif.Honest.ArpCI
import Verif.Honest.ArpViol
import Verif.Honest.Identified

/-!
# C161, C162: concrete cases for the intervals; the entry points with a single post-period
-/

set_option linter.unusedSectionVars false
set_option linter.unusedSimpArgs false

namespace Verif.Honest

open MeasureTheory ProbabilityTheory Finset

/-! ## Concrete cases for C161 -/

/-- Weights of the rows on the two second differences. -/
def pieceW (b : Bool) (i : ℕ) : ℝ × ℝ :=
  match b, i with
  | true, 0 => (-1, 1)
  | true, 1 => (-2, 0)
  | true, _ => (-1, -1)
  | false, 0 => (2, 0)
  | false, 1 => (1, 1)
  | false, _ => (1, -1)

theorem piece_len (b : Bool) : (sdrmMatrix (1 / 10 ^ 10 : ℝ) 2 1 1 0 b).length = 3 := by
  cases b
  · simp [sdrmMatrix, absStack, ubRows, dropZeroRowsSq, signed, setSlice_three, List.range_succ, setSlice,  sum_range_succ, setAt, List.filter_cons]
    norm_num
  · simp [sdrmMatrix, absStack, ubRows, dropZeroRowsSq, signed, setSlice_three, List.range_succ, setSlice,  sum_range_succ, setAt, List.filter_cons]
    norm_num

theorem piece_rows (b : Bool) (i j : ℕ) (hi : i < 3) (hj : j < 3) :
    rowsOf (sdrmMatrix (1 / 10 ^ 10 : ℝ) 2 1 1 0 b) i j = (pieceW b i).1 * sdRow' 0 j + (pieceW b i).2 * sdRow' 1 j := by
  unfold rowsOf
  cases b
  · interval_cases i <;> interval_cases j <;> simp [sdrmMatrix, absStack, ubRows, dropZeroRowsSq, signed, setSlice_three, List.range_succ, setSlice,  sum_range_succ, setAt, List.filter_cons, pieceW, sdRow'] <;>
      norm_num [delCol]
  · interval_cases i <;> interval_cases j <;> simp [sdrmMatrix, absStack, ubRows, dropZeroRowsSq, signed, setSlice_three, List.range_succ, setSlice,  sum_range_succ, setAt, List.filter_cons, pieceW, sdRow'] <;>
      norm_num [delCol]

theorem bilin_cov (k n : ℕ) (L : ℕ → Fin k → ℝ) (c e : ℕ → ℝ) :
    bilin n c e (covOf k L) = ∑ r, (∑ j ∈ range n, c j * L j r) * (∑ j ∈ range n, e j * L j r) := by
  unfold bilin covOf
  simp only [mul_sum, sum_mul]
  have : ∀ i ∈ range n, (∑ x ∈ range n, ∑ r, c i * (L i r * L x r) * e x) = ∑ r, ∑ x ∈ range n, c i * (L i r * L x r) * e x :=
    fun i _ => sum_comm
  rw [sum_congr rfl this, sum_comm]
  refine sum_congr rfl fun r _ => ?_
  rw [sum_comm]
  refine sum_congr rfl fun i _ => sum_congr rfl fun j _ => by ring

theorem piece_bilin (b : Bool) (i k : ℕ) (hi : i < 3) (hk : k < 3) :
    bilin 3 (rowsOf (sdrmMatrix (1 / 10 ^ 10 : ℝ) 2 1 1 0 b) i) (rowsOf (sdrmMatrix (1 / 10 ^ 10 : ℝ) 2 1 1 0 b) k) (covOf 3 sdL) =
      (pieceW b i).1 * (pieceW b k).1 + (pieceW b i).2 * (pieceW b k).2 := by
  have h : ∀ i < 3, ∀ r : Fin 3, ∑ j ∈ range 3, rowsOf (sdrmMatrix (1 / 10 ^ 10 : ℝ) 2 1 1 0 b) i j * sdL j r =
      if r = 0 then (pieceW b i).1 else if r = 1 then (pieceW b i).2 else 0 := by
    intro i hi r
    simp only [sum_range_succ, sum_range_zero]
    rw [piece_rows b i 0 hi (by norm_num), piece_rows b i 1 hi (by norm_num), piece_rows b i 2 hi (by norm_num)]
    fin_cases r <;> simp [sdRow', sdL] <;> ring
  rw [bilin_cov, Fin.sum_univ_three]
  simp only [h i hi, h k hk]
  simp

theorem piece_regular (b : Bool) :
    RegularMoments 3 3 (covOf 3 sdL) (rowsOf (sdrmMatrix (1 / 10 ^ 10 : ℝ) 2 1 1 0 b)) where
  symm i _ j _ := by unfold covOf; exact sum_congr rfl fun r _ => mul_comm _ _
  psd c := by rw [covOf_quad]; positivity
  sd i hi := by
    rw [quad_bilin, piece_bilin b i i hi hi]
    have h : arpTol ≤ 1 := by unfold arpTol; norm_num
    refine h.trans (Real.one_le_sqrt.2 ?_)
    cases b <;> interval_cases i <;> simp [pieceW] <;> norm_num
  corr i hi B hB := by
    have ht : arpTol < 1 / 10 := by unfold arpTol; norm_num
    unfold rowCorr
    rw [quad_bilin, quad_bilin, piece_bilin b i B hi hB, piece_bilin b i i hi hi, piece_bilin b B B hB hB]
    by_cases hiB : i = B
    · left
      subst hiB
      rw [Real.mul_self_sqrt (by nlinarith [mul_self_nonneg (pieceW b i).1, mul_self_nonneg (pieceW b i).2])]
      refine div_self ?_
      cases b <;> interval_cases i <;> simp [pieceW] <;> norm_num
    · right
      set a := (pieceW b i).1 * (pieceW b B).1 + (pieceW b i).2 * (pieceW b B).2 with ha
      set S := (pieceW b i).1 * (pieceW b i).1 + (pieceW b i).2 * (pieceW b i).2 with hS
      set T := (pieceW b B).1 * (pieceW b B).1 + (pieceW b B).2 * (pieceW b B).2 with hT
      have key : 0 < S ∧ 0 < T ∧ a ^ 2 ≤ 81 / 100 * (S * T) := by
        rw [ha, hS, hT]
        cases b <;> interval_cases i <;> interval_cases B <;> simp [pieceW] at hiB ⊢ <;> norm_num
      obtain ⟨k1, k2, k3⟩ := key
      have hp : 0 < Real.sqrt S * Real.sqrt T := mul_pos (Real.sqrt_pos.2 k1) (Real.sqrt_pos.2 k2)
      have hsq : (Real.sqrt S * Real.sqrt T) ^ 2 = S * T := by
        rw [mul_pow, Real.sq_sqrt k1.le, Real.sq_sqrt k2.le]
      have h9 : a ≤ 9 / 10 * (Real.sqrt S * Real.sqrt T) := abs_le_of_sq_le_sq' (by nlinarith) (by positivity) |>.2
      have h2 : a / (Real.sqrt S * Real.sqrt T) ≤ 9 / 10 := by rw [div_le_iff₀ hp]; exact h9
      rw [abs_sub_comm]
      refine lt_of_lt_of_le ht (le_trans ?_ (le_abs_self _))
      linarith

/-- Two pre-periods, one post-period, independent second differences with unit variance, differences in trends `(1, 0, 1)` (second
differences `1` and `1`), true effect `0` in the middle of a grid of three points. -/
example : (stdNormals 3).real {z | ¬ ∃ acc, sdrmCs true (1 / 10 ^ 10) 2 1 (gaussOf 3 (fun j => if j = 1 then 0 else 1) sdL z) (covOf 3 sdL)
    (1 / 20) (-1) 1 3 (fun _ _ => TestKind.arp) = some acc ∧ acc[1]? = some true} ≤ 1 / 20 := by
  refine C161_sdrm (stdNormals 3) true (1 / 10 ^ 10) (by norm_num) (by norm_num) 2 1 _ (fun j => if j = 1 then 0 else 1) (covOf 3 sdL)
    (1 / 20) (-1) 1 3 1 (by norm_num) 0 (gauss_exists 3 3 _ sdL) ?_ ?_ ?_ (by norm_num) (by norm_num)
  · intro s hs b
    have : s = 0 := by
      have e : sRangeSDRM 2 = [0] := by decide
      rw [e] at hs
      simpa using hs
    subst this
    rw [piece_len]
    exact ⟨by norm_num, piece_regular b⟩
  · rw [linGrid_get _ _ _ _ (by norm_num)]
    norm_num
  · refine ⟨0, by norm_num, ?_, ?_⟩
    · intro r hr
      have : r = 0 := by omega
      subst this
      exact le_rfl
    · intro r h1 h2
      have : r = 1 := by omega
      subst this
      simp [D2, full, shiftPost]


/-- One pre-period, one post-period, `delta_1 <= 0`, `delta_2 <= 0`; the true effect is `0`. -/
example : (stdNormals 2).real {z | ¬ ∃ r, arpCi true 1 1 2 1 2 (gaussOf 2 (fun j => -j) idL z) (covOf 2 idL) idA (fun _ => 0) (1 / 20)
    (some (-1)) (some 1) 3 TestKind.arp = some r ∧ r.Covers 0} ≤ 1 / 20 := by
  refine C161_coverage (stdNormals 2) true 1 1 2 1 (by norm_num) le_rfl le_rfl _ (fun j => -j) (covOf 2 idL) idA (1 / 20) (-1) 1 3 0
    (gauss_exists 2 2 _ idL) id_regular ?_ ?_ (by norm_num) (by norm_num)
  · refine List.mem_of_getElem? (i := 1) ?_
    rw [linGrid_get _ _ _ _ (by norm_num)]
    norm_num
  · intro i hi
    interval_cases i <;> simp [dotN, idA, sum_range_succ, shiftPost]

/-- The same with the right-hand side `1` and the least-favourable hybrid with first-stage critical value `10`. -/
example : (stdNormals 2).real {z | ¬ ∃ r, arpCi true 1 1 2 1 2 (gaussOf 2 (fun j => 1 - j) idL z) (covOf 2 idL) idA (fun _ => 1) (1 / 20)
    (some (-1)) (some 1) 3 (TestKind.lf (some (1 / 50)) (some 10)) = some r ∧ r.Covers 0} ≤ 1 / 20 := by
  refine C161_coverage_lf (stdNormals 2) true 1 1 2 1 (by norm_num) le_rfl le_rfl _ (fun j => 1 - j) (covOf 2 idL) idA (fun _ => 1)
    (1 / 20) (1 / 50) 10 (-1) 1 3 0 (gauss_exists 2 2 _ idL) id_regular ?_ ?_ (by intro i _; norm_num) (by norm_num) (by norm_num)
    (by norm_num) ?_
  · refine List.mem_of_getElem? (i := 1) ?_
    rw [linGrid_get _ _ _ _ (by norm_num)]
    norm_num
  · intro i hi
    interval_cases i <;> simp [dotN, idA, sum_range_succ, shiftPost]
  · have hsub : {z : Fin 2 → ℝ | ∃ i < 2, 10 < dotN (1 + 1) (idA i) (fun j => gaussOf 2 (fun j => 1 - j) idL z j - (1 - j)) /
        Real.sqrt (quadForm (1 + 1) (idA i) (covOf 2 idL))} ⊆ {z | 10 ≤ |z 0|} ∪ {z | 10 ≤ |z 1|} := by
      rintro z ⟨i, hi, hz⟩
      rw [id_quad] at hz
      interval_cases i
      · left
        simp [dotN, idA, sum_range_succ, gaussOf, idL, Fin.sum_univ_two] at hz
        exact (hz.le).trans (le_abs_self _)
      · right
        simp [dotN, idA, sum_range_succ, gaussOf, idL, Fin.sum_univ_two] at hz
        exact (hz.le).trans (le_abs_self _)
    refine le_trans (measure_mono hsub) (le_trans (measure_union_le _ _) ?_)
    refine le_trans (add_le_add (coord_tail 2 0 10 (by norm_num)) (coord_tail 2 1 10 (by norm_num))) ?_
    rw [← ENNReal.ofReal_add (by norm_num) (by norm_num)]
    exact ENNReal.ofReal_le_ofReal (by norm_num)

/-! ## C162: entry points with one post-period -/

/-- `_compute_conditional_cs_rm_fixed_s` with one post-period, `rm.py:699-725`. -/
noncomputable def rmPiece (nb : Bool) (tol : ℝ) (p : ℕ) (mbar : ℝ) (s : ℤ) (b : Bool) (y : ℕ → ℝ) (sigma : ℕ → ℕ → ℝ) (alpha : ℝ)
    (gridLb gridUb : ℝ) (points : ℕ) (kind : TestKind) : Option (List ℝ × List Bool) :=
  (arpCi nb p 1 (rmMatrix tol p 1 mbar s b).length 1 (p + 1) y sigma (rowsOf (rmMatrix tol p 1 mbar s b)) (fun _ => 0) alpha
    (some gridLb) (some gridUb) points kind).bind fun r => r.acceptGrid.columns

/-- C162 (violated).  The relative-magnitudes confidence set with one post-period raises an exception, for all data and options. -/
theorem C162_rm_violated (nb : Bool) (tol : ℝ) (p : ℕ) (mbar : ℝ) (s : ℤ) (b : Bool) (y : ℕ → ℝ) (sigma : ℕ → ℕ → ℝ) (alpha : ℝ)
    (gridLb gridUb : ℝ) (points : ℕ) (kind : TestKind) : rmPiece nb tol p mbar s b y sigma alpha gridLb gridUb points kind = none := by
  unfold rmPiece
  cases arpCi nb p 1 (rmMatrix tol p 1 mbar s b).length 1 (p + 1) y sigma (rowsOf (rmMatrix tol p 1 mbar s b)) (fun _ => 0) alpha
    (some gridLb) (some gridUb) points kind <;> rfl

/-- The FLCI arguments of `_compute_cs_sd_no_nuisance` and `_compute_cs_sdb_no_nuisance`: the slice `optimal_vec[num_pre_periods:]` of
the `p + 1` weights, `sd.py:429-430`, `sdb.py:456-457`. -/
def sdFlci (p : ℕ) (kappa half : ℝ) (w : ℕ → ℝ) : TestKind := TestKind.flci (some kappa) (some half) (some (p + 1 - p, fun j => w (p + j)))

/-- `_compute_cs_sd_no_nuisance` for a given grid, `sd.py:461-479`. -/
noncomputable def sdSingle (nb : Bool) (p : ℕ) (M : ℝ) (y : ℕ → ℝ) (sigma : ℕ → ℕ → ℝ) (alpha : ℝ) (gridLb gridUb : ℝ) (points : ℕ)
    (kind : TestKind) : Option ArpCI :=
  arpCi nb p 1 (sdMatrix (K := ℝ) p 1).length 1 (p + 1) y sigma (rowsOf (sdMatrix p 1)) (fun _ => M) alpha (some gridLb) (some gridUb)
    points kind

/-- C162 (violated).  The default hybrid ("FLCI") of the smoothness restriction with one post-period and at least one pre-period raises
an exception: the first-stage weights have length 1 instead of `p + 1`. -/
theorem C162_flci_violated (nb : Bool) (p : ℕ) (hp : 1 ≤ p) (M : ℝ) (y : ℕ → ℝ) (sigma : ℕ → ℕ → ℝ) (alpha gridLb gridUb : ℝ) (points : ℕ)
    (kappa half : ℝ) (w : ℕ → ℝ) : sdSingle nb p M y sigma alpha gridLb gridUb points (sdFlci p kappa half w) = none := by
  unfold sdSingle arpCi
  dsimp only
  rw [if_neg (by simp), if_neg (by omega)]
  simp only [sdFlci, TestKind.run, Option.bind_some, Option.getD_some]
  have ht : ∀ v, flciTest nb (p + 1) (sdMatrix (K := ℝ) p 1).length v sigma (rowsOf (sdMatrix p 1)) (fun _ => M) alpha kappa half (p + 1 - p)
      (fun j => w (p + j)) = none := by
    intro v
    unfold flciTest
    rw [if_pos (by omega)]
  simp only [ht]
  cases hg : linGrid gridLb gridUb points with
  | nil => simp [testGrid]
  | cons a g => simp [testGrid, List.mapM_cons]

/-- C162 (violated).  The sign-restricted smoothness variant does not pass the first-stage critical value of the "LF" hybrid
(`sdb.py:481-499`) and the second-difference relative-magnitudes variants do not pass the arguments of the "FLCI" hybrid
(`sdrm.py:548-566`, `sdrmm.py:587-605`): these calls raise an exception, for all data. -/
theorem C162_missing_violated (nb : Bool) (p q m idx lenBeta : ℕ) (y : ℕ → ℝ) (sigma A : ℕ → ℕ → ℝ) (d : ℕ → ℝ) (alpha : ℝ)
    (gridLb gridUb : Option ℝ) (points : ℕ) (kappa : Option ℝ) :
    arpCi nb p q m idx lenBeta y sigma A d alpha gridLb gridUb points (TestKind.lf kappa none) = none ∧
      arpCi nb p q m idx lenBeta y sigma A d alpha gridLb gridUb points (TestKind.flci kappa none none) = none := by
  unfold arpCi
  constructor <;> (cases kappa <;> simp [TestKind.run])

theorem linGrid_between (lo up : ℝ) (h : lo ≤ up) (points : ℕ) (t : ℝ) (ht : t ∈ linGrid lo up points) : lo ≤ t ∧ t ≤ up := by
  unfold linGrid at ht
  obtain ⟨i, hi, rfl⟩ := List.mem_map.1 ht
  rw [List.mem_range] at hi
  split_ifs with h1
  · exact ⟨le_rfl, h⟩
  · have hp : (0 : ℝ) < (points : ℝ) - 1 := by
      have : (2 : ℝ) ≤ points := by exact_mod_cast (show 2 ≤ points by omega)
      linarith
    have hi' : (i : ℝ) ≤ (points : ℝ) - 1 := by
      have : ((i + 1 : ℕ) : ℝ) ≤ points := by exact_mod_cast hi
      push_cast at this
      linarith
    have hd : 0 ≤ (up - lo) / ((points : ℝ) - 1) := div_nonneg (by linarith) hp.le
    refine ⟨by nlinarith [mul_nonneg (Nat.cast_nonneg (α := ℝ) i) hd], ?_⟩
    have : (i : ℝ) * ((up - lo) / ((points : ℝ) - 1)) ≤ ((points : ℝ) - 1) * ((up - lo) / ((points : ℝ) - 1)) :=
      mul_le_mul_of_nonneg_right hi' hd
    rw [mul_div_cancel₀ _ hp.ne'] at this
    linarith

/-- C162 (violated).  The default grid of the smoothness restriction (hybrids "LF" and "ARP", `sd.py:447-459`) is built from the
identified set at coefficients ZERO: whatever the estimates, the reported interval contains no effect larger than `M + 20` standard
errors in absolute value. -/
theorem C162_grid_violated (nb : Bool) (p : ℕ) (hp : 1 ≤ p) (M : ℝ) (hM : 0 ≤ M) (y : ℕ → ℝ) (sigma : ℕ → ℕ → ℝ) (alpha : ℝ) (points : ℕ)
    (kind : TestKind) (rmax rmin : Option ℝ)
    (hmax : LpMin (feasible p 1 (sdMatrix p 1) M fun _ => 0) (fun v => -target p 1 (fun _ => 1) v) rmax)
    (hmin : LpMin (feasible p 1 (sdMatrix p 1) M fun _ => 0) (target p 1 fun _ => 1) rmin) (r : ArpCI)
    (h : sdSingle nb p M y sigma alpha
      ((bounds (target p 1 (fun _ => 1) fun _ => 0) rmax rmin).1 - 20 * Real.sqrt (sigma p p))
      ((bounds (target p 1 (fun _ => 1) fun _ => 0) rmax rmin).2 + 20 * Real.sqrt (sigma p p)) points kind = some r)
    (theta : ℝ) (hc : r.Covers theta) : |theta| ≤ M + 20 * Real.sqrt (sigma p p) := by
  set bd := bounds (target p 1 (fun _ => (1 : ℝ)) fun _ => 0) rmax rmin with hbd
  have hzero : (0 : ℝ) ∈ IdSet p 1 (DeltaSD p 1 M) (fun _ => (0 : ℝ)) (fun _ => 1) := by
    refine ⟨fun _ => 0, ?_, fun _ _ => rfl, by simp⟩
    intro r _
    simp [D2, full, hM]
  have hex := C63_sd_exact p 1 hp M (fun _ => (0 : ℝ)) (fun _ => 1) rmax rmin hmax hmin ⟨0, hzero⟩
  have hin : ∀ t ∈ IdSet p 1 (DeltaSD p 1 M) (fun _ => (0 : ℝ)) (fun _ => 1), |t| ≤ M := by
    rintro t ⟨δ, hδ, hpre, rfl⟩
    have h1 := hδ (p - 1) (by omega)
    have e : D2 (full p δ) (p - 1) = δ p := by
      unfold D2 full
      have e1 : p - 1 + 1 = p := by omega
      have e2 : p - 1 + 2 = p + 1 := by omega
      rw [e1, e2, if_pos (by omega), if_neg (by omega), if_pos rfl, if_neg (by omega), if_neg (by omega), hpre _ (by omega)]
      simp
    rw [e] at h1
    simpa using h1
  have h00 := (hex 0).2 hzero
  have hle : bd.1 ≤ bd.2 := h00.1.trans h00.2
  have hb1 : |bd.1| ≤ M := hin _ ((hex bd.1).1 ⟨le_rfl, hle⟩)
  have hb2 : |bd.2| ≤ M := hin _ ((hex bd.2).1 ⟨hle, le_rfl⟩)
  have hs := Real.sqrt_nonneg (sigma p p)
  obtain ⟨lo, up, hci, hl, hu⟩ := hc
  have hh := (C161_hull nb p 1 _ 1 (p + 1) y sigma _ _ alpha _ _ points kind r h).2 lo up hci
  have hgrid : ∀ t b, (t, b) ∈ r.rows → t ∈ linGrid (bd.1 - 20 * Real.sqrt (sigma p p)) (bd.2 + 20 * Real.sqrt (sigma p p)) points := by
    intro t b htb
    have h' := h
    unfold sdSingle arpCi at h'
    dsimp only at h'
    rw [if_neg (by simp), if_neg (by omega)] at h'
    rw [Option.bind_eq_some_iff] at h'
    obtain ⟨test, _, h'⟩ := h'
    rw [Option.bind_eq_some_iff] at h'
    obtain ⟨rows, hr, h'⟩ := h'
    split_ifs at h'
    cases h'
    have := (testGrid_spec test p 1 y _ rows hr).1
    simp only [Option.getD_some] at this
    rw [← this]
    exact List.mem_map.2 ⟨(t, b), htb, rfl⟩
  have g1 := linGrid_between _ _ (by linarith) points lo (hgrid lo true hh.1)
  have g2 := linGrid_between _ _ (by linarith) points up (hgrid up true hh.2.1)
  rw [abs_le] at hb1 hb2 ⊢
  constructor <;> linarith [hb1.1, hb1.2, hb2.1, hb2.2, g1.1, g2.2]

/-- One pre-period, `M = 1`: the identified set at zero is `[-1, 1]`, and the test of a run returns. -/
example : LpMin (feasible (K := ℝ) 1 1 (sdMatrix 1 1) 1 fun _ => 0) (target 1 1 fun _ => 1) (some (-1)) := by
  refine ⟨⟨fun j => if j = 1 then -1 else 0, ⟨?_, ?_⟩, by simp [target]⟩, ?_⟩
  · rw [C60_sd]
    intro r hr
    have : r = 0 := by omega
    subst this
    simp [D2, full]
  · intro j hj
    have : j = 0 := by omega
    subst this
    simp
  · rintro t ⟨v, ⟨hv, hpre⟩, rfl⟩
    rw [C60_sd] at hv
    have h1 := hv 0 (by norm_num)
    have h2 := hpre 0 (by norm_num)
    simp [D2, full, target] at h1 h2 ⊢
    rw [h2] at h1
    have := (abs_le.1 h1).1
    linarith

end Verif.Honest
