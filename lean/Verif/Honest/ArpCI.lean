import Verif.Honest.ArpSize
import Verif.Honest.Relative
import Mathlib.Tactic.FinCases
import Mathlib.Data.List.GetD

/-!
# Confidence intervals by inversion of the conditional tests: model and properties of `compute_arp_ci` and its callers
-/

set_option linter.unusedSectionVars false
set_option linter.unusedSimpArgs false

namespace Verif.Honest

open MeasureTheory ProbabilityTheory Finset

/-! ## Model -/

/-- `np.linspace(lo, up, points)`, `arp_no_nuisance.py:177`. -/
noncomputable def linGrid (lo up : ℝ) (points : ℕ) : List ℝ :=
  (List.range points).map fun (i : ℕ) => if points = 1 then lo else lo + (i : ℝ) * ((up - lo) / (points - 1))

/-- One row of `prepare_theta_grid_y_values(beta_hat, e, theta_grid)` with `e` the basis vector of the post-period `idx` (from 1),
`arp_no_nuisance.py:607-609`, `numba.py:172-180`. -/
def shiftPost (p idx : ℕ) (theta : ℝ) (y : ℕ → ℝ) (j : ℕ) : ℝ := y j - theta * if j + 1 = p + idx then 1 else 0

/-- Which test and its extra arguments, `arp_no_nuisance.py:156-163,179-186`; `none` = not given. -/
inductive TestKind where
  | arp : TestKind
  | lf (kappa lfCv : Option ℝ) : TestKind
  | flci (kappa half : Option ℝ) (l : Option (ℕ × (ℕ → ℝ))) : TestKind

/-- The test function with its arguments; the outer `none` is the `ValueError` of 156-163 for a missing argument, the inner one an
exception of the test. -/
noncomputable def TestKind.run (nb : Bool) (n m : ℕ) (sigma A : ℕ → ℕ → ℝ) (d : ℕ → ℝ) (alpha : ℝ) :
    TestKind → Option ((ℕ → ℝ) → Option Bool)
  | TestKind.arp => some fun y => arpTest nb n m y sigma A d alpha
  | TestKind.lf (some kappa) (some cv) => some fun y => lfTest nb n m y sigma A d alpha kappa cv
  | TestKind.flci (some kappa) (some half) (some l) => some fun y => flciTest nb n m y sigma A d alpha kappa half l.1 l.2
  | _ => none

/-- The grid with the results, `_test_over_theta_grid`, `arp_no_nuisance.py:607-638`. -/
def testGrid (test : (ℕ → ℝ) → Option Bool) (p idx : ℕ) (y : ℕ → ℝ) (grid : List ℝ) : Option (List (ℝ × Bool)) :=
  grid.mapM fun theta => (test (shiftPost p idx theta y)).map fun b => (theta, b)

/-- The result of `compute_arp_ci`: grid with accept flags (two separate one-dimensional arrays in the code) and the interval, `none`
for the NaN bounds. -/
structure ArpCI where
  rows : List (ℝ × Bool)
  ci : Option (ℝ × ℝ)

/-- `compute_arp_ci`, `arp_no_nuisance.py:144-234`.  `grid_lb`, `grid_ub` `none` = not given.  `accept_grid[0]` raises for an empty
grid. -/
noncomputable def arpCi (nb : Bool) (p q m idx : ℕ) (lenBeta : ℕ) (y : ℕ → ℝ) (sigma A : ℕ → ℕ → ℝ) (d : ℕ → ℝ) (alpha : ℝ)
    (gridLb gridUb : Option ℝ) (points : ℕ) (kind : TestKind) : Option ArpCI :=
  if lenBeta ≠ p + q then none
  else if idx < 1 ∨ q < idx then none
  else
    (kind.run nb (p + q) m sigma A d alpha).bind fun test =>
      let point := y (p + idx - 1)
      let se := Real.sqrt (sigma (p + idx - 1) (p + idx - 1))
      let grid := linGrid (gridLb.getD (point - 10 * se)) (gridUb.getD (point + 10 * se)) points
      (testGrid test p idx y grid).bind fun rows =>
        if rows = [] then none
        else
          let acc := (rows.filter (·.2)).map (·.1)
          some ⟨rows, acc.min?.bind fun lo => acc.max?.map fun up => (lo, up)⟩

/-- An array of accept flags: `compute_arp_ci` returns the one-dimensional `results_grid[:, 1]` (204, 227-234),
`compute_arp_nuisance_ci` the two columns `[theta, accept]` (`arp_nuisance.py:226-232`). -/
inductive AcceptGrid where
  | one (flags : List Bool) : AcceptGrid
  | two (rows : List (ℝ × Bool)) : AcceptGrid

/-- `grid[:, 0], grid[:, 1]`: `IndexError` (`none`) for a one-dimensional array, `rm.py:725,745`. -/
def AcceptGrid.columns : AcceptGrid → Option (List ℝ × List Bool)
  | AcceptGrid.one _ => none
  | AcceptGrid.two rows => some (rows.map (·.1), rows.map (·.2))

/-- The field `accept_grid` of the result of `compute_arp_ci`, `arp_no_nuisance.py:204,232`. -/
def ArpCI.acceptGrid (r : ArpCI) : AcceptGrid := AcceptGrid.one (r.rows.map (·.2))

/-- `{"grid": result.theta_grid, "accept": result.accept_grid}`, `sd.py:479`, `sdb.py:501`, `sdm.py:518`, `sdrm.py:567`,
`sdrmb.py:561`, `sdrmm.py:607`. -/
def ArpCI.flags (r : ArpCI) : List Bool := r.rows.map (·.2)

/-- The rows of a constraint matrix. -/
def rowsOf (l : List (ℕ → ℝ)) (i j : ℕ) : ℝ := (l.getD i 0) j

/-- `_compute_cs_sdrm_no_nuisance`, `sdrm.py:521-567`, for `hybrid_flag` "ARP" or "LF" (`cv` is the simulated first-stage critical
value of the piece); "FLCI" is passed on without its arguments. -/
noncomputable def sdrmPiece (nb : Bool) (tol : ℝ) (p : ℕ) (mbar : ℝ) (s : ℤ) (b : Bool) (y : ℕ → ℝ) (sigma : ℕ → ℕ → ℝ) (alpha : ℝ)
    (gridLb gridUb : Option ℝ) (points : ℕ) (kind : TestKind) : Option (List Bool) :=
  (arpCi nb p 1 (sdrmMatrix tol p 1 mbar s b).length 1 (p + 1) y sigma (rowsOf (sdrmMatrix tol p 1 mbar s b)) (fun _ => 0) alpha
    gridLb gridUb points kind).map ArpCI.flags

/-- `compute_conditional_cs_sdrm` with one post-period, `sdrm.py:162-220`: the flags of all pieces `(s, sign)` are combined by the
maximum. -/
noncomputable def sdrmCs (nb : Bool) (tol : ℝ) (p : ℕ) (mbar : ℝ) (y : ℕ → ℝ) (sigma : ℕ → ℕ → ℝ) (alpha : ℝ)
    (gridLb gridUb : ℝ) (points : ℕ) (kind : ℤ → Bool → TestKind) : Option (List Bool) :=
  (((sRangeSDRM p).flatMap fun s => [(s, true), (s, false)]).mapM fun sb =>
    sdrmPiece nb tol p mbar sb.1 sb.2 y sigma alpha (some gridLb) (some gridUb) points (kind sb.1 sb.2)).map fun cols =>
      (List.range points).map fun i => cols.any fun col => col.getD i false

/-! ## Lemmas -/

theorem testGrid_spec (test : (ℕ → ℝ) → Option Bool) (p idx : ℕ) (y : ℕ → ℝ) (grid : List ℝ) (rows : List (ℝ × Bool))
    (h : testGrid test p idx y grid = some rows) :
    rows.map (·.1) = grid ∧ ∀ r ∈ rows, test (shiftPost p idx r.1 y) = some r.2 := by
  unfold testGrid at h
  induction grid generalizing rows with
  | nil => simp at h; subst h; simp
  | cons a g ih =>
    rw [List.mapM_cons] at h
    simp only [Option.bind_eq_bind, Option.pure_def] at h
    rw [Option.bind_eq_some_iff] at h
    obtain ⟨x, hx, h⟩ := h
    rw [Option.bind_eq_some_iff] at h
    obtain ⟨xs, hxs, h⟩ := h
    obtain ⟨h1, h2⟩ := ih xs hxs
    rw [Option.map_eq_some_iff] at hx
    obtain ⟨b, hb, hx⟩ := hx
    cases h
    subst hx
    refine ⟨by rw [List.map_cons, h1], ?_⟩
    intro r hr
    rcases List.mem_cons.1 hr with rfl | hr
    · exact hb
    · exact h2 r hr

theorem testGrid_total (test : (ℕ → ℝ) → Option Bool) (p idx : ℕ) (y : ℕ → ℝ) (grid : List ℝ)
    (h : ∀ theta ∈ grid, ∃ b, test (shiftPost p idx theta y) = some b) : ∃ rows, testGrid test p idx y grid = some rows := by
  unfold testGrid
  induction grid with
  | nil => exact ⟨[], rfl⟩
  | cons a g ih =>
    obtain ⟨b, hb⟩ := h a List.mem_cons_self
    obtain ⟨rows, hr⟩ := ih fun t ht => h t (List.mem_cons_of_mem _ ht)
    exact ⟨(a, b) :: rows, by rw [List.mapM_cons, hr, hb]; rfl⟩

/-- Normal coefficients stay normal when a constant is subtracted. -/
theorem gauss_shift {Ω : Type*} [MeasurableSpace Ω] (P : Measure Ω) (n : ℕ) (y : Ω → ℕ → ℝ) (beta : ℕ → ℝ) (sigma : ℕ → ℕ → ℝ)
    (h : GaussianCoefs P n y beta sigma) (k : ℕ → ℝ) :
    GaussianCoefs P n (fun ω j => y ω j - k j) (fun j => beta j - k j) sigma := by
  intro c
  have e : (fun ω => ∑ j ∈ range n, c j * (y ω j - k j)) =
      (fun x => x - ∑ j ∈ range n, c j * k j) ∘ fun ω => ∑ j ∈ range n, c j * y ω j := by
    funext ω
    simp only [Function.comp, mul_sub, sum_sub_distrib]
  have hm : AEMeasurable (fun ω => ∑ j ∈ range n, c j * y ω j) P := aemeasurable_of_map_neZero (by rw [h c]; infer_instance)
  rw [e, ← AEMeasurable.map_map_of_aemeasurable (by fun_prop) hm, h c, gaussianReal_map_sub_const]
  congr 1
  simp only [mul_sub, sum_sub_distrib]

/-! ## C161: the interval -/

/-- C161.  The interval is the hull of the accepted grid points: every accepted value lies in it and both ends are accepted values;
the bounds are NaN exactly if no value is accepted. -/
theorem C161_hull (nb : Bool) (p q m idx lenBeta : ℕ) (y : ℕ → ℝ) (sigma A : ℕ → ℕ → ℝ) (d : ℕ → ℝ) (alpha : ℝ)
    (gridLb gridUb : Option ℝ) (points : ℕ) (kind : TestKind) (r : ArpCI)
    (h : arpCi nb p q m idx lenBeta y sigma A d alpha gridLb gridUb points kind = some r) :
    (r.ci = none ↔ ∀ t, (t, true) ∉ r.rows) ∧
      ∀ lo up, r.ci = some (lo, up) → (lo, true) ∈ r.rows ∧ (up, true) ∈ r.rows ∧ ∀ t, (t, true) ∈ r.rows → lo ≤ t ∧ t ≤ up := by
  unfold arpCi at h
  dsimp only at h
  split_ifs at h with h1 h2
  rw [Option.bind_eq_some_iff] at h
  obtain ⟨test, ht, h⟩ := h
  rw [Option.bind_eq_some_iff] at h
  obtain ⟨rows, hr, h⟩ := h
  split_ifs at h with h3
  cases h
  have hmem : ∀ t, t ∈ (rows.filter (·.2)).map (·.1) ↔ (t, true) ∈ rows := by
    intro t
    simp only [List.mem_map, List.mem_filter, Prod.exists, exists_and_right, exists_eq_right]
  generalize hacc : (rows.filter (·.2)).map (·.1) = acc at hmem
  dsimp only
  cases hmin : acc.min? with
  | none =>
    have he : acc = [] := List.min?_eq_none_iff.1 hmin
    subst he
    refine ⟨⟨fun _ t ht => ?_, fun _ => rfl⟩, fun lo up hc => ?_⟩
    · have := (hmem t).2 ht
      simp at this
    · cases hc
  | some lo =>
    have hlo := List.min?_eq_some_iff.1 hmin
    cases hmax : acc.max? with
    | none =>
      have he : acc = [] := List.max?_eq_none_iff.1 hmax
      rw [he] at hlo
      simp at hlo
    | some up =>
      have hup := List.max?_eq_some_iff.1 hmax
      refine ⟨⟨fun hc => ?_, fun hn => ?_⟩, fun lo' up' hc => ?_⟩
      · simp at hc
      · exact absurd ((hmem lo).1 hlo.1) (hn lo)
      · simp at hc
        obtain ⟨rfl, rfl⟩ := hc
        exact ⟨(hmem _).1 hlo.1, (hmem _).1 hup.1, fun t ht => ⟨hlo.2 t ((hmem t).2 ht), hup.2 t ((hmem t).2 ht)⟩⟩

theorem arp_returns (nb : Bool) (n m : ℕ) (hm : 0 < m) (y : ℕ → ℝ) (sigma A : ℕ → ℕ → ℝ) (d : ℕ → ℝ) (alpha : ℝ)
    (hreg : RegularMoments n m sigma A) (ha0 : 0 < alpha) (ha1 : alpha < 1) : ∃ b, arpTest nb n m y sigma A d alpha = some b := by
  classical
  have hB := argmax_first m hm (moment n (aTilde n sigma A) (dTilde n sigma A d) y)
  obtain ⟨lo, up, h1, _, c, h3, _⟩ := reject_means nb n m y sigma A (dTilde n sigma A d) alpha hreg ha0 ha1 _ hB
  cases hr : arpTest nb n m y sigma A d alpha with
  | some b => exact ⟨b, rfl⟩
  | none =>
    exfalso
    unfold arpTest arpCore at hr
    dsimp only at hr
    rw [if_neg hm.ne', h1] at hr
    simp only [Option.bind_some, h3, Option.map_some] at hr
    split_ifs at hr

theorem lf_returns (nb : Bool) (n m : ℕ) (hm : 0 < m) (y : ℕ → ℝ) (sigma A : ℕ → ℕ → ℝ) (d : ℕ → ℝ) (alpha kappa lfCv : ℝ)
    (hreg : RegularMoments n m sigma A) (hk0 : 0 ≤ kappa) (hk : kappa < alpha) (ha1 : alpha < 1) :
    ∃ b, lfTest nb n m y sigma A d alpha kappa lfCv = some b := by
  classical
  have hk1 : 0 < 1 - kappa := by linarith
  have hat0 : 0 < alphaTilde alpha kappa := div_pos (by linarith) hk1
  have hat1 : alphaTilde alpha kappa < 1 := by rw [alphaTilde, div_lt_one hk1]; linarith
  have hB := argmax_first m hm (moment n (aTilde n sigma A) (dTilde n sigma A d) y)
  obtain ⟨lo, up, h1, _, c, h3, _⟩ := reject_means nb n m y sigma A (dTilde n sigma A d) _ hreg hat0 hat1 _ hB
  cases hr : lfTest nb n m y sigma A d alpha kappa lfCv with
  | some b => exact ⟨b, rfl⟩
  | none =>
    exfalso
    unfold lfTest at hr
    dsimp only at hr
    rw [if_neg hm.ne', h1] at hr
    simp only [Option.bind_some, h3, Option.map_some] at hr
    split_ifs at hr

/-- The reported interval contains `theta`. -/
def ArpCI.Covers (r : ArpCI) (theta : ℝ) : Prop := ∃ lo up, r.ci = some (lo, up) ∧ lo ≤ theta ∧ theta ≤ up

theorem grid_ne (lo up : ℝ) (points : ℕ) (h : 0 < points) : linGrid lo up points ≠ [] := by
  unfold linGrid
  intro he
  have := congrArg List.length he
  simp at this
  omega

/-- A run with a total test. -/
theorem arpCi_run (nb : Bool) (p q m idx : ℕ) (y : ℕ → ℝ) (sigma A : ℕ → ℕ → ℝ) (d : ℕ → ℝ) (alpha lo up : ℝ) (points : ℕ)
    (kind : TestKind) (test : (ℕ → ℝ) → Option Bool) (hk : kind.run nb (p + q) m sigma A d alpha = some test)
    (htot : ∀ v, ∃ b, test v = some b) (hi1 : 1 ≤ idx) (hiq : idx ≤ q) (hp : 0 < points) :
    ∃ r, arpCi nb p q m idx (p + q) y sigma A d alpha (some lo) (some up) points kind = some r ∧
      r.rows.map (·.1) = linGrid lo up points ∧ ∀ x ∈ r.rows, test (shiftPost p idx x.1 y) = some x.2 := by
  obtain ⟨rows, hr⟩ := testGrid_total test p idx y (linGrid lo up points) fun t _ => htot _
  obtain ⟨h1, h2⟩ := testGrid_spec test p idx y _ rows hr
  have hne : rows ≠ [] := by
    intro he
    rw [he] at h1
    exact grid_ne lo up points hp h1.symm
  refine ⟨⟨rows, ((rows.filter (·.2)).map (·.1)).min?.bind fun lo => ((rows.filter (·.2)).map (·.1)).max?.map fun up => (lo, up)⟩,
    ?_, h1, h2⟩
  unfold arpCi
  dsimp only
  rw [if_neg (by simp), if_neg (by omega), hk]
  simp only [Option.bind_some, Option.getD_some, hr]
  rw [if_neg hne]

theorem cover_of_accept (nb : Bool) (p q m idx : ℕ) (y : ℕ → ℝ) (sigma A : ℕ → ℕ → ℝ) (d : ℕ → ℝ) (alpha lo up : ℝ) (points : ℕ)
    (kind : TestKind) (test : (ℕ → ℝ) → Option Bool) (hk : kind.run nb (p + q) m sigma A d alpha = some test)
    (htot : ∀ v, ∃ b, test v = some b) (hi1 : 1 ≤ idx) (hiq : idx ≤ q) (theta : ℝ) (ht : theta ∈ linGrid lo up points)
    (hacc : test (shiftPost p idx theta y) = some true) :
    ∃ r, arpCi nb p q m idx (p + q) y sigma A d alpha (some lo) (some up) points kind = some r ∧ r.Covers theta := by
  have hp : 0 < points := by
    rcases Nat.eq_zero_or_pos points with h | h
    · subst h; simp [linGrid] at ht
    · exact h
  obtain ⟨r, hr, h1, h2⟩ := arpCi_run nb p q m idx y sigma A d alpha lo up points kind test hk htot hi1 hiq hp
  refine ⟨r, hr, ?_⟩
  rw [← h1] at ht
  obtain ⟨x, hx, rfl⟩ := List.mem_map.1 ht
  have hb := h2 x hx
  rw [hacc] at hb
  have hxt : (x.1, true) ∈ r.rows := by
    have : x.2 = true := (Option.some.inj hb).symm
    rw [← this]
    exact hx
  have hh := C161_hull nb p q m idx (p + q) y sigma A d alpha _ _ points kind r hr
  cases hci : r.ci with
  | none => exact absurd hxt (hh.1.1 hci x.1)
  | some c =>
    have := (hh.2 c.1 c.2 hci).2.2 x.1 hxt
    exact ⟨c.1, c.2, hci, this⟩

variable {Ω : Type*} [MeasurableSpace Ω]

/-- C161.  Coverage of the conditional interval for homogeneous restrictions: the true effect `theta` in post-period `idx` lies on the
grid, the remaining differences satisfy `A delta <= 0`; then the reported interval exists and contains `theta` except with probability at
most `alpha`. -/
theorem C161_coverage (P : Measure Ω) [IsProbabilityMeasure P] (nb : Bool) (p q m idx : ℕ) (hm : 0 < m) (hi1 : 1 ≤ idx) (hiq : idx ≤ q) (betaHat : Ω → ℕ → ℝ)
    (beta : ℕ → ℝ) (sigma A : ℕ → ℕ → ℝ) (alpha lo up : ℝ) (points : ℕ) (theta : ℝ)
    (hG : GaussianCoefs P (p + q) betaHat beta sigma) (hreg : RegularMoments (p + q) m sigma A) (ht : theta ∈ linGrid lo up points)
    (hnull : NullHolds (p + q) m A (fun _ => 0) (shiftPost p idx theta beta)) (ha0 : 0 < alpha) (ha1 : alpha < 1) :
    P.real {ω | ¬ ∃ r, arpCi nb p q m idx (p + q) (betaHat ω) sigma A (fun _ => 0) alpha (some lo) (some up) points TestKind.arp =
      some r ∧ r.Covers theta} ≤ alpha := by
  refine le_trans (measureReal_mono ?_) (C159_size P nb (p + q) m hm (fun ω => shiftPost p idx theta (betaHat ω)) _ sigma A alpha
    (gauss_shift P (p + q) betaHat beta sigma hG _) hreg hnull ha0 ha1)
  intro ω hω
  obtain ⟨b, hb⟩ := arp_returns nb (p + q) m hm (shiftPost p idx theta (betaHat ω)) sigma A (fun _ => 0) alpha hreg ha0 ha1
  cases b with
  | false => exact hb
  | true =>
    exact absurd (cover_of_accept nb p q m idx (betaHat ω) sigma A _ alpha lo up points TestKind.arp _ rfl
      (fun v => arp_returns nb (p + q) m hm v sigma A _ alpha hreg ha0 ha1) hi1 hiq theta ht hb) hω

/-- C161.  The same for the least-favourable hybrid, for every right-hand side `d >= 0`, if the first stage has size `kappa`. -/
theorem C161_coverage_lf (P : Measure Ω) [IsProbabilityMeasure P] (nb : Bool) (p q m idx : ℕ) (hm : 0 < m) (hi1 : 1 ≤ idx) (hiq : idx ≤ q)
    (betaHat : Ω → ℕ → ℝ) (beta : ℕ → ℝ) (sigma A : ℕ → ℕ → ℝ) (d : ℕ → ℝ) (alpha kappa lfCv lo up : ℝ) (points : ℕ) (theta : ℝ)
    (hG : GaussianCoefs P (p + q) betaHat beta sigma) (hreg : RegularMoments (p + q) m sigma A) (ht : theta ∈ linGrid lo up points)
    (hnull : NullHolds (p + q) m A d (shiftPost p idx theta beta)) (hd : ∀ i < m, 0 ≤ d i) (hk0 : 0 ≤ kappa) (hk : kappa < alpha)
    (ha1 : alpha < 1)
    (hlf : P {ω | ∃ i < m, lfCv < dotN (p + q) (A i) (fun j => betaHat ω j - beta j) / Real.sqrt (quadForm (p + q) (A i) sigma)} ≤
      ENNReal.ofReal kappa) :
    P.real {ω | ¬ ∃ r, arpCi nb p q m idx (p + q) (betaHat ω) sigma A d alpha (some lo) (some up) points
      (TestKind.lf (some kappa) (some lfCv)) = some r ∧ r.Covers theta} ≤ alpha := by
  refine le_trans (measureReal_mono ?_) (C158_size P nb (p + q) m hm (fun ω => shiftPost p idx theta (betaHat ω)) _ sigma A alpha kappa
    lfCv d (gauss_shift P (p + q) betaHat beta sigma hG _) hreg hnull hd hk0 hk ha1 ?_)
  · intro ω hω
    obtain ⟨b, hb⟩ := lf_returns nb (p + q) m hm (shiftPost p idx theta (betaHat ω)) sigma A d alpha kappa lfCv hreg hk0 hk ha1
    cases b with
    | false => exact hb
    | true =>
      exact absurd (cover_of_accept nb p q m idx (betaHat ω) sigma A _ alpha lo up points (TestKind.lf (some kappa) (some lfCv)) _ rfl
        (fun v => lf_returns nb (p + q) m hm v sigma A _ alpha kappa lfCv hreg hk0 hk ha1) hi1 hiq theta ht hb) hω
  · refine le_trans (measure_mono ?_) hlf
    rintro ω ⟨i, hi, h⟩
    refine ⟨i, hi, ?_⟩
    have e : (fun j => shiftPost p idx theta (betaHat ω) j - (beta j - theta * if j + 1 = p + idx then 1 else 0)) =
        fun j => betaHat ω j - beta j := by
      funext j
      unfold shiftPost
      ring
    rw [e] at h
    exact h

/-! ## C161: the union over the pieces of the relative-magnitudes restriction -/

theorem mapM_mem {α β : Type*} (f : α → Option β) (l : List α) (h : ∀ a ∈ l, ∃ b, f a = some b) :
    ∃ bs, l.mapM f = some bs ∧ ∀ a ∈ l, ∃ b ∈ bs, f a = some b := by
  induction l with
  | nil => exact ⟨[], rfl, fun a ha => by simp at ha⟩
  | cons a l ih =>
    obtain ⟨b, hb⟩ := h a List.mem_cons_self
    obtain ⟨bs, h1, h2⟩ := ih fun a ha => h a (List.mem_cons_of_mem _ ha)
    refine ⟨b :: bs, by rw [List.mapM_cons, h1, hb]; rfl, fun a' ha' => ?_⟩
    rcases List.mem_cons.1 ha' with rfl | ha'
    · exact ⟨b, List.mem_cons_self, hb⟩
    · obtain ⟨b', hb', he⟩ := h2 a' ha'
      exact ⟨b', List.mem_cons_of_mem _ hb', he⟩

theorem sat_null (n : ℕ) (l : List (ℕ → ℝ)) (v : ℕ → ℝ) (h : Sat n l 0 v) : NullHolds n l.length (rowsOf l) (fun _ => 0) v := by
  intro i hi
  have hm : l.getD i 0 ∈ l := by
    rw [List.getD_eq_getElem _ _ hi]
    exact List.getElem_mem hi
  exact h _ hm

/-- Value of the grid at position `i`. -/
theorem linGrid_get (lo up : ℝ) (points i : ℕ) (hi : i < points) :
    (linGrid lo up points)[i]? = some (if points = 1 then lo else lo + i * ((up - lo) / (points - 1))) := by
  unfold linGrid
  rw [List.getElem?_map, List.getElem?_range hi]
  rfl

/-- C161.  `compute_conditional_cs_sdrm` with one post-period and the conditional test: if the differences in trends satisfy the
relative-magnitudes restriction on second differences, the true effect, which is the grid point number `i`, is marked as accepted except
with probability at most `alpha`. -/
theorem C161_sdrm (P : Measure Ω) [IsProbabilityMeasure P] (nb : Bool) (tol : ℝ) (h0 : 0 ≤ tol) (h1 : tol < 1) (p : ℕ) (mbar : ℝ)
    (betaHat : Ω → ℕ → ℝ) (beta : ℕ → ℝ) (sigma : ℕ → ℕ → ℝ) (alpha lo up : ℝ) (points i : ℕ) (hi : i < points) (theta : ℝ)
    (hG : GaussianCoefs P (p + 1) betaHat beta sigma)
    (hreg : ∀ s ∈ sRangeSDRM p, ∀ b, 0 < (sdrmMatrix tol p 1 mbar s b).length ∧
      RegularMoments (p + 1) (sdrmMatrix tol p 1 mbar s b).length sigma (rowsOf (sdrmMatrix tol p 1 mbar s b)))
    (ht : (linGrid lo up points)[i]? = some theta) (hdelta : shiftPost p 1 theta beta ∈ DeltaSDRM p 1 mbar)
    (ha0 : 0 < alpha) (ha1 : alpha < 1) :
    P.real {ω | ¬ ∃ acc, sdrmCs nb tol p mbar (betaHat ω) sigma alpha lo up points (fun _ _ => TestKind.arp) = some acc ∧
      acc[i]? = some true} ≤ alpha := by
  obtain ⟨s, hs, b, hsat⟩ := (C62_sdrm_search tol h0 h1 p 1 mbar _).2 hdelta
  obtain ⟨hm, hr⟩ := hreg s hs b
  refine le_trans (measureReal_mono ?_) (C159_size P nb (p + 1) _ hm (fun ω => shiftPost p 1 theta (betaHat ω)) _ sigma _ alpha
    (gauss_shift P (p + 1) betaHat beta sigma hG _) hr (sat_null _ _ _ hsat) ha0 ha1)
  intro ω hω
  set y := betaHat ω with hy
  have hpts : 0 < points := lt_of_le_of_lt (Nat.zero_le _) hi
  obtain ⟨bt, hb⟩ := arp_returns nb (p + 1) _ hm (shiftPost p 1 theta y) sigma _ (fun _ => 0) alpha hr ha0 ha1
  cases bt with
  | false => exact hb
  | true =>
    exfalso
    apply hω
    have hall : ∀ sb ∈ (sRangeSDRM p).flatMap fun s => [(s, true), (s, false)], ∃ fl,
        sdrmPiece nb tol p mbar sb.1 sb.2 y sigma alpha (some lo) (some up) points TestKind.arp = some fl := by
      intro sb hsb
      rw [List.mem_flatMap] at hsb
      obtain ⟨s', hs', hsb⟩ := hsb
      have e : sb.1 = s' := by
        rcases List.mem_cons.1 hsb with h | h
        · rw [h]
        · rw [List.mem_singleton.1 h]
      obtain ⟨hm', hr'⟩ := hreg s' hs' sb.2
      rw [← e] at hm' hr'
      obtain ⟨r, h, _⟩ := arpCi_run nb p 1 _ 1 y sigma _ (fun _ => 0) alpha lo up points TestKind.arp _ rfl
        (fun v => arp_returns nb (p + 1) _ hm' v sigma _ _ alpha hr' ha0 ha1) le_rfl le_rfl hpts
      exact ⟨r.flags, by unfold sdrmPiece; rw [h]; rfl⟩
    obtain ⟨cols, hc1, hc2⟩ := mapM_mem _ _ hall
    obtain ⟨fl, hfl, hpc⟩ := hc2 (s, b) (by
      rw [List.mem_flatMap]
      exact ⟨s, hs, by cases b <;> simp⟩)
    refine ⟨(List.range points).map fun i => cols.any fun col => col.getD i false, by unfold sdrmCs; rw [hc1]; rfl, ?_⟩
    rw [List.getElem?_map, List.getElem?_range hi]
    simp only [Option.map_some, Option.some.injEq, List.any_eq_true]
    refine ⟨fl, hfl, ?_⟩
    obtain ⟨r, h, hg, hv⟩ := arpCi_run nb p 1 _ 1 y sigma (rowsOf (sdrmMatrix tol p 1 mbar s b)) (fun _ => 0) alpha lo up points
      TestKind.arp _ rfl (fun v => arp_returns nb (p + 1) _ hm v sigma _ _ alpha hr ha0 ha1) le_rfl le_rfl hpts
    unfold sdrmPiece at hpc
    rw [h] at hpc
    have hfe : fl = r.flags := (Option.some.inj hpc).symm
    rw [hfe]
    have hlen : i < r.rows.length := by
      have := congrArg List.length hg
      rw [List.length_map] at this
      rw [this]
      simpa [linGrid] using hi
    have hx := hv r.rows[i] (List.getElem_mem hlen)
    have hth : r.rows[i].1 = theta := by
      have : (r.rows.map (·.1))[i]? = some theta := by rw [hg]; exact ht
      rw [List.getElem?_map, List.getElem?_eq_getElem hlen] at this
      exact Option.some.inj this
    rw [hth] at hx
    have h2 : r.rows[i].2 = true := (Option.some.inj (hx.symm.trans hb))
    unfold ArpCI.flags
    rw [List.getD_eq_getElem?_getD, List.getElem?_map, List.getElem?_eq_getElem hlen]
    simpa using h2

end Verif.Honest
