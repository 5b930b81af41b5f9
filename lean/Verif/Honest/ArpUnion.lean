import Verif.Honest.ArpNuisCi
import Verif.Honest.ArpExist
import Verif.Honest.CombinedProps

/-!
# C232: confidence sets for relative magnitudes with several post-periods

Model of `compute_conditional_cs_rm`, `_rmb`, `_rmm`, `_sdrm`, `_sdrmb`, `_sdrmm` with at least two post-periods: the union over
reference differences and signs of confidence intervals of `compute_arp_nuisance_ci`.
-/

set_option linter.unusedSectionVars false
set_option linter.unusedSimpArgs false

namespace Verif.Honest

open MeasureTheory ProbabilityTheory Finset Matrix

variable {p q : ℕ} {Ω : Type*} [MeasurableSpace Ω]

/-! ## Model -/

/-- A constraint matrix given by its rows. -/
def toMat (n : ℕ) (A : List (ℕ → ℝ)) : Matrix (Fin A.length) (Fin n) ℝ := fun i j => A.get i j

/-- `rows_for_arp`, `rm.py:686-694`, `rmb.py:578-582`, `rmm.py:580-584`, `sdrm.py:455-458`, `sdrmb.py:473-476`, `sdrmm.py:494-497`: the rows
with a non-zero entry in a post-period column, all rows if there is none or without `post_period_moments_only`.  (The variants that use
`find_rows_with_post_period_values` would pass an empty array on; these matrices always have such a row.) -/
noncomputable def arpRows (postOnly : Bool) (p q : ℕ) (A : List (ℕ → ℝ)) : List (Fin A.length) :=
  let rows := (List.finRange A.length).filter fun i => usesPost p q (A.get i)
  if postOnly = true ∧ rows ≠ [] then rows else List.finRange A.length

/-- The constraint matrix of the pair `(s, sign)`, `rm.py:677-683`, `rmb.py:568-575`, `rmm.py:570-577`, `sdrm.py:452`, `sdrmb.py:470`,
`sdrmm.py:491`; `second` selects second differences. -/
noncomputable def relMat (second : Bool) (tol : ℝ) (p q : ℕ) (mbar : ℝ) (e : Extra) (s : ℤ) (b : Bool) : List (ℕ → ℝ) :=
  (if second then sdrmMatrix tol p q mbar s b else rmMatrix tol p q mbar s b) ++ e.rows p q

/-- The values of `s` visited, `rm.py:190-191`, `rmb.py:156-157`, `rmm.py:155-156`, `sdrm.py:162-163`, `sdrmb.py:176-177`,
`sdrmm.py:170-171`. -/
def relRefs (second : Bool) (p : ℕ) (e : Extra) : List ℤ := if second then sRangeSDRM p else e.refs p

/-- What a call of `compute_arp_nuisance_ci` uses besides the matrices: the hybrid with its first-stage quantities, the solver and the search
for truncation points. -/
structure Tools (q : ℕ) (A : List (ℕ → ℝ)) (rows : List (Fin A.length)) where
  kind : CiKind A.length
  solve : (Fin rows.length → ℝ) → Option (LpSol rows.length q)
  dual : ℝ → (Fin rows.length → ℝ) → (Fin rows.length → ℝ) → Bnd ℝ × Bnd ℝ

/-- The accept column of one pair `(s, sign)`, `rm.py:727-745`, `rmb.py:640-658`, `rmm.py:642-660`, `sdrm.py:478-518`, `sdrmb.py:499-516`,
`sdrmm.py:517-557`, with `d = 0`. -/
noncomputable def pieceFlags (A : List (ℕ → ℝ)) (rows : List (Fin A.length)) (T : Tools q A rows) (l : Fin (q + 1) → ℝ)
    (sigma : Matrix (Fin (p + (q + 1))) (Fin (p + (q + 1))) ℝ) (alpha : ℝ) (betahat : Fin (p + (q + 1)) → ℝ) (lo up : ℝ) (points : ℕ) :
    Option (List Bool) :=
  (nuisCi T.solve T.dual (toMat (p + (q + 1)) A) 0 l sigma rows.get T.kind alpha betahat (some lo) (some up) points).map
    fun c => c.rows.map (·.2)

/-- The confidence set on the grid, `rm.py:190-252`, `rmb.py:156-210`, `rmm.py:155-209`, `sdrm.py:162-220`, `sdrmb.py:176-236`,
`sdrmm.py:170-227`, for `q + 1 >= 2` post-periods and given grid limits; `none` is an exception (`rm.py:159-160`; without any `s` the
maximum over no columns raises). -/
noncomputable def relCs (second : Bool) (tol : ℝ) (mbar : ℝ) (e : Extra) (postOnly : Bool) (l : Fin (q + 1) → ℝ)
    (T : ∀ s b, Tools q (relMat second tol p (q + 1) mbar e s b) (arpRows postOnly p (q + 1) (relMat second tol p (q + 1) mbar e s b)))
    (sigma : Matrix (Fin (p + (q + 1))) (Fin (p + (q + 1))) ℝ) (alpha : ℝ) (betahat : Fin (p + (q + 1)) → ℝ) (lo up : ℝ) (points : ℕ) :
    Option (List Bool) :=
  if p < 2 then none
  else (((relRefs second p e).flatMap fun s => [(s, true), (s, false)]).mapM fun sb =>
    pieceFlags (relMat second tol p (q + 1) mbar e sb.1 sb.2) _ (T sb.1 sb.2) l sigma alpha betahat lo up points).map fun cols =>
      (List.range points).map fun i => cols.any fun col => col.getD i false

/-! ## Specification -/

/-- The observed coefficients: violation plus effects. -/
def trueBeta (p q : ℕ) (v : ℕ → ℝ) (τ : Fin (q + 1) → ℝ) : Fin (p + (q + 1)) → ℝ := fun j => v j + padPost p τ j

/-- The grid value. -/
noncomputable def gridAt (lo up : ℝ) (points i : ℕ) : ℝ := lo + (i : ℝ) * ((up - lo) / (points - 1))

/-- The assumptions on one pair: regular moments, a correct solver with basic solutions and an exact search for the truncation points. -/
structure ToolsOk (A : List (ℕ → ℝ)) (rows : List (Fin A.length)) (T : Tools q A rows) (G : Matrix (Fin (q + 1)) (Fin (q + 1)) ℝ)
    (sigma : Matrix (Fin (p + (q + 1))) (Fin (p + (q + 1))) ℝ) : Prop where
  regular : RegularLp (toMat (p + (q + 1)) A * sigma * (toMat (p + (q + 1)) A)ᵀ) (xNuis (toMat (p + (q + 1)) A) G) rows.get
  solver : SolverOk ((toMat (p + (q + 1)) A * sigma * (toMat (p + (q + 1)) A)ᵀ).submatrix rows.get rows.get)
    ((xNuis (toMat (p + (q + 1)) A) G).submatrix rows.get id) T.solve
  basic : ∀ u s, T.solve u = some s → s.lam ∈ DualVertex ((toMat (p + (q + 1)) A * sigma * (toMat (p + (q + 1)) A)ᵀ).submatrix rows.get rows.get)
    ((xNuis (toMat (p + (q + 1)) A) G).submatrix rows.get id)
  dual : DualOk T.dual ((toMat (p + (q + 1)) A * sigma * (toMat (p + (q + 1)) A)ᵀ).submatrix rows.get rows.get)
    ((xNuis (toMat (p + (q + 1)) A) G).submatrix rows.get id)

/-! ## Lemmas -/

/-- With regular moments the assumptions on solver and search can always be met. -/
theorem tools_exist (A : List (ℕ → ℝ)) (rows : List (Fin A.length)) (G : Matrix (Fin (q + 1)) (Fin (q + 1)) ℝ)
    (sigma : Matrix (Fin (p + (q + 1))) (Fin (p + (q + 1))) ℝ) (kind : CiKind A.length)
    (h : RegularLp (toMat (p + (q + 1)) A * sigma * (toMat (p + (q + 1)) A)ᵀ) (xNuis (toMat (p + (q + 1)) A) G) rows.get) :
    ∃ T : Tools q A rows, T.kind = kind ∧ ToolsOk (p := p) A rows T G sigma := by
  obtain ⟨solve, h1, h2⟩ := solver_exists ((toMat (p + (q + 1)) A * sigma * (toMat (p + (q + 1)) A)ᵀ).submatrix rows.get rows.get)
    ((xNuis (toMat (p + (q + 1)) A) G).submatrix rows.get id) (fun i => Real.sqrt_pos.2 (h.pos i))
  exact ⟨⟨kind, solve, exactDual _ _⟩, rfl, h, h1, h2, exactDual_ok _ _⟩

theorem toMat_mulVec (A : List (ℕ → ℝ)) (n : ℕ) (v : ℕ → ℝ) (i : Fin A.length) :
    (toMat n A *ᵥ fun j : Fin n => v j) i = dotN n (A.get i) v := by
  show ∑ j : Fin n, A.get i j * v j = ∑ j ∈ range n, A.get i j * v j
  exact Fin.sum_univ_eq_sum_range (fun j => A.get i j * v j) n

/-- A path satisfying the rows makes the effect compatible. -/
theorem compatible_of_sat (A : List (ℕ → ℝ)) (l : Fin (q + 1) → ℝ) (v : ℕ → ℝ) (τ : Fin (q + 1) → ℝ) (h : Sat (p + (q + 1)) A 0 v) :
    Compatible (toMat (p + (q + 1)) A) 0 l (trueBeta p q v τ) (l ⬝ᵥ τ) := by
  refine ⟨τ, rfl, fun i => ?_⟩
  have e : trueBeta p q v τ - padPost p τ = fun j : Fin (p + (q + 1)) => v j := by
    funext j
    simp [trueBeta]
  rw [e, toMat_mulVec]
  exact h _ (List.get_mem _ _)

/-- The accept flag of an accepted grid value, if the accepted values are contiguous. -/
theorem flag_of_accept {R r : ℕ} (solve : (Fin r → ℝ) → Option (LpSol r q)) (dual : ℝ → (Fin r → ℝ) → (Fin r → ℝ) → Bnd ℝ × Bnd ℝ)
    (A : Matrix (Fin R) (Fin (p + (q + 1))) ℝ) (d : Fin R → ℝ) (l : Fin (q + 1) → ℝ) (G : Matrix (Fin (q + 1)) (Fin (q + 1)) ℝ)
    (hG : constructGamma l = some G)
    (sigma : Matrix (Fin (p + (q + 1))) (Fin (p + (q + 1))) ℝ) (rows : Fin r → Fin R) (kind : CiKind R) (alpha : ℝ)
    (betahat : Fin (p + (q + 1)) → ℝ) (lo up : ℝ) (points : ℕ) (h2 : 2 ≤ points)
    (hret : ∀ theta, ∃ b, nuisTest solve dual A G d sigma rows kind alpha betahat theta = some b)
    (hcont : ContiguousAccept solve dual A G d sigma rows kind alpha betahat lo up points)
    (i : ℕ) (hi : i < points)
    (hacc : nuisTest solve dual A G d sigma rows kind alpha betahat ((linGrid lo up points).getD i 0) = some false) :
    ∃ c, nuisCi solve dual A d l sigma rows kind alpha betahat (some lo) (some up) points = some c ∧
      (c.rows.map (·.2)).getD i false = true := by
  classical
  unfold nuisCi
  rw [hG, Option.bind_some]
  dsimp only [nuisRange, Option.getD_some]
  rw [if_neg]
  · set test : ℕ → Bool := fun i => decide (nuisTest solve dual A G d sigma rows kind alpha betahat ((linGrid lo up points).getD i 0) = some false) with htest
    obtain ⟨rr, hr, -, -⟩ := C163_ends test points (by omega)
    have hc : Contiguous test points := by
      intro i j k h1 h2' h3 h4 h5
      simp only [htest, decide_eq_true_eq] at h4 h5 ⊢
      exact hcont i j k h1 h2' h3 h4 h5
    have hex := (C163_exact test points (by omega) hc rr hr i hi).1 (by simpa [htest] using hacc)
    obtain ⟨lb, ub, rfl, hlb, hub⟩ := hex
    refine ⟨_, by rw [hr]; rfl, ?_⟩
    have hlen : (linGrid lo up points).length = points := by simp [linGrid]
    rw [List.getD_eq_getElem?_getD, List.getElem?_map, List.getElem?_mapIdx, List.getElem?_eq_getElem (by rw [hlen]; exact hi)]
    simp [hlb, hub]
  · rintro (h | ⟨j, _, h⟩)
    · omega
    · obtain ⟨b, hb⟩ := hret ((linGrid lo up points).getD j 0)
      rw [hb] at h
      cases h

/-- An interval is returned whenever the test returns. -/
theorem nuisCi_returns {R r : ℕ} (solve : (Fin r → ℝ) → Option (LpSol r q)) (dual : ℝ → (Fin r → ℝ) → (Fin r → ℝ) → Bnd ℝ × Bnd ℝ)
    (A : Matrix (Fin R) (Fin (p + (q + 1))) ℝ) (d : Fin R → ℝ) (l : Fin (q + 1) → ℝ) (G : Matrix (Fin (q + 1)) (Fin (q + 1)) ℝ)
    (hG : constructGamma l = some G)
    (sigma : Matrix (Fin (p + (q + 1))) (Fin (p + (q + 1))) ℝ) (rows : Fin r → Fin R) (kind : CiKind R) (alpha : ℝ)
    (betahat : Fin (p + (q + 1)) → ℝ) (lo up : ℝ) (points : ℕ) (h2 : 2 ≤ points)
    (hret : ∀ theta, ∃ b, nuisTest solve dual A G d sigma rows kind alpha betahat theta = some b) :
    ∃ c, nuisCi solve dual A d l sigma rows kind alpha betahat (some lo) (some up) points = some c := by
  classical
  unfold nuisCi
  rw [hG, Option.bind_some]
  dsimp only [nuisRange, Option.getD_some]
  rw [if_neg]
  · obtain ⟨rr, hr, -, -⟩ := C163_ends (fun i => decide (nuisTest solve dual A G d sigma rows kind alpha betahat
      ((linGrid lo up points).getD i 0) = some false)) points (by omega)
    rw [hr]
    exact ⟨_, rfl⟩
  · rintro (h | ⟨j, _, h⟩)
    · omega
    · obtain ⟨b, hb⟩ := hret ((linGrid lo up points).getD j 0)
      rw [hb] at h
      cases h

theorem mapM_some_all {α β : Type*} (f : α → Option β) (l : List α) (h : ∀ x ∈ l, ∃ y, f x = some y) :
    ∃ ys, l.mapM f = some ys ∧ ∀ x ∈ l, ∀ y, f x = some y → y ∈ ys := by
  induction l with
  | nil => exact ⟨[], rfl, fun x hx => by cases hx⟩
  | cons a l ih =>
    obtain ⟨y, hy⟩ := h a List.mem_cons_self
    obtain ⟨ys, h1, h2⟩ := ih fun x hx => h x (List.mem_cons_of_mem _ hx)
    refine ⟨y :: ys, by rw [List.mapM_cons, hy, h1]; rfl, fun x hx z hz => ?_⟩
    rcases List.mem_cons.1 hx with rfl | hx
    · rw [hy] at hz
      cases hz
      exact List.mem_cons_self
    · exact List.mem_cons_of_mem _ (h2 x hx z hz)

/-- The generic union: if the path satisfies the rows of one visited pair. -/
theorem union_cover (P : Measure Ω) [IsProbabilityMeasure P] (betahat : Ω → Fin (p + (q + 1)) → ℝ) (v : ℕ → ℝ) (τ : Fin (q + 1) → ℝ)
    (second : Bool) (tol mbar : ℝ) (e : Extra) (postOnly : Bool) (l : Fin (q + 1) → ℝ) (G : Matrix (Fin (q + 1)) (Fin (q + 1)) ℝ)
    (hG : constructGamma l = some G) (hp : 2 ≤ p)
    (T : ∀ s b, Tools q (relMat second tol p (q + 1) mbar e s b) (arpRows postOnly p (q + 1) (relMat second tol p (q + 1) mbar e s b)))
    (sigma : Matrix (Fin (p + (q + 1))) (Fin (p + (q + 1))) ℝ) (alpha : ℝ) (hbeta : GaussVec P betahat (trueBeta p q v τ) sigma)
    (hT : ∀ s ∈ relRefs second p e, ∀ b, ToolsOk (p := p) _ _ (T s b) G sigma)
    (hfirst : ∀ s ∈ relRefs second p e, ∀ b, FirstStage P betahat (trueBeta p q v τ) sigma (toMat (p + (q + 1)) (relMat second tol p (q + 1) mbar e s b)) G
      (arpRows postOnly p (q + 1) (relMat second tol p (q + 1) mbar e s b)).get alpha (l ⬝ᵥ τ) (T s b).kind)
    (lo up : ℝ) (points : ℕ) (h2 : 2 ≤ points) (i : ℕ) (hi : i < points) (hgrid : l ⬝ᵥ τ = gridAt lo up points i)
    (s : ℤ) (hs : s ∈ relRefs second p e) (b : Bool) (hsat : Sat (p + (q + 1)) (relMat second tol p (q + 1) mbar e s b) 0 v)
    (ha0 : 0 < alpha) (ha1 : alpha < 1) :
    P.real {ω | (∀ s ∈ relRefs second p e, ∀ b, ContiguousAccept (T s b).solve (T s b).dual
        (toMat (p + (q + 1)) (relMat second tol p (q + 1) mbar e s b)) G 0 sigma
        (arpRows postOnly p (q + 1) (relMat second tol p (q + 1) mbar e s b)).get (T s b).kind alpha (betahat ω) lo up points) ∧
      ¬ ∃ flags, relCs second tol mbar e postOnly l T sigma alpha (betahat ω) lo up points = some flags ∧ flags[i]? = some true} ≤ alpha := by
  have key := C169_test P betahat (trueBeta p q v τ) (T s b).solve (T s b).dual (toMat (p + (q + 1)) (relMat second tol p (q + 1) mbar e s b)) 0 l G
    sigma (arpRows postOnly p (q + 1) (relMat second tol p (q + 1) mbar e s b)).get (T s b).kind alpha (l ⬝ᵥ τ) hG hbeta
    (compatible_of_sat _ l v τ hsat) (hT s hs b).regular (hT s hs b).solver (hT s hs b).dual (hfirst s hs b) ha0 ha1
  refine le_trans (measureReal_mono ?_) key
  rintro ω ⟨hc, hn⟩
  have hret : ∀ s ∈ relRefs second p e, ∀ b theta, ∃ x, nuisTest (T s b).solve (T s b).dual
      (toMat (p + (q + 1)) (relMat second tol p (q + 1) mbar e s b)) G 0 sigma
      (arpRows postOnly p (q + 1) (relMat second tol p (q + 1) mbar e s b)).get (T s b).kind alpha (betahat ω) theta = some x := fun s hs b theta =>
    C165_returns _ _ _ _ _ _ alpha _ (hT s hs b).regular (hT s hs b).basic
  obtain ⟨x, hx⟩ := hret s hs b (l ⬝ᵥ τ)
  cases x with
  | true => exact hx
  | false =>
    exfalso
    apply hn
    have hpiece : ∀ sb ∈ (relRefs second p e).flatMap fun s => [(s, true), (s, false)], ∃ y,
        pieceFlags (relMat second tol p (q + 1) mbar e sb.1 sb.2) _ (T sb.1 sb.2) l sigma alpha (betahat ω) lo up points = some y := by
      intro sb hsb
      rw [List.mem_flatMap] at hsb
      obtain ⟨s', hs', hmem⟩ := hsb
      have hs1 : sb.1 = s' := by
        simp only [List.mem_cons, List.not_mem_nil, or_false] at hmem
        rcases hmem with rfl | rfl <;> rfl
      obtain ⟨c, hc'⟩ := nuisCi_returns _ _ (toMat (p + (q + 1)) (relMat second tol p (q + 1) mbar e sb.1 sb.2)) 0 l G hG sigma _ _ alpha (betahat ω) lo up
        points h2 (hret sb.1 (hs1 ▸ hs') sb.2)
      exact ⟨_, by unfold pieceFlags; rw [hc']; rfl⟩
    obtain ⟨ys, hys, hmem⟩ := mapM_some_all _ _ hpiece
    rw [hgrid, gridAt, ← grid_value lo up points i h2 hi] at hx
    obtain ⟨c, hc1, hc2⟩ := flag_of_accept _ _ _ 0 l G hG sigma _ _ alpha (betahat ω) lo up points h2 (hret s hs b) (hc s hs b) i hi hx
    have hin : c.rows.map (·.2) ∈ ys := by
      refine hmem (s, b) ?_ _ ?_
      · rw [List.mem_flatMap]
        exact ⟨s, hs, by cases b <;> simp⟩
      · unfold pieceFlags
        dsimp only
        rw [hc1]
        rfl
    refine ⟨_, by unfold relCs; rw [if_neg (by omega), hys]; rfl, ?_⟩
    rw [List.getElem?_map, List.getElem?_range hi]
    simp only [Option.map_some, Option.some.injEq, List.any_eq_true]
    exact ⟨_, hin, hc2⟩

/-! ## C232 -/

/-- **C232.**  Relative magnitudes, alone or with a sign or monotonicity restriction, at least two pre- and two post-periods (`q >= 1`): if the
largest pre-treatment change of the violation is attained at some difference other than the first, every true effect on the grid is in the
confidence set except with probability at most `alpha` (and non-contiguous acceptance). -/
theorem C232_rm_coverage (P : Measure Ω) [IsProbabilityMeasure P] (betahat : Ω → Fin (p + (q + 1)) → ℝ) (v : ℕ → ℝ) (τ : Fin (q + 1) → ℝ)
    (tol : ℝ) (h0 : 0 ≤ tol) (h1 : tol < 1) (mbar : ℝ) (e : Extra) (postOnly : Bool) (l : Fin (q + 1) → ℝ)
    (G : Matrix (Fin (q + 1)) (Fin (q + 1)) ℝ) (hG : constructGamma l = some G) (hp : 2 ≤ p)
    (T : ∀ s b, Tools q (relMat false tol p (q + 1) mbar e s b) (arpRows postOnly p (q + 1) (relMat false tol p (q + 1) mbar e s b)))
    (sigma : Matrix (Fin (p + (q + 1))) (Fin (p + (q + 1))) ℝ) (alpha : ℝ) (hbeta : GaussVec P betahat (trueBeta p q v τ) sigma)
    (hT : ∀ s ∈ e.refs p, ∀ b, ToolsOk (p := p) _ _ (T s b) G sigma)
    (hfirst : ∀ s ∈ e.refs p, ∀ b, FirstStage P betahat (trueBeta p q v τ) sigma (toMat (p + (q + 1)) (relMat false tol p (q + 1) mbar e s b)) G
      (arpRows postOnly p (q + 1) (relMat false tol p (q + 1) mbar e s b)).get alpha (l ⬝ᵥ τ) (T s b).kind)
    (hv : v ∈ DeltaRM p (q + 1) mbar) (he : e.Holds p (q + 1) v)
    (hmax : ∃ s0, 1 ≤ s0 ∧ s0 < p ∧ ∀ r < p, |D1 (full p v) r| ≤ |D1 (full p v) s0|)
    (lo up : ℝ) (points : ℕ) (h2 : 2 ≤ points) (i : ℕ) (hi : i < points) (hgrid : l ⬝ᵥ τ = gridAt lo up points i)
    (ha0 : 0 < alpha) (ha1 : alpha < 1) :
    P.real {ω | (∀ s ∈ e.refs p, ∀ b, ContiguousAccept (T s b).solve (T s b).dual
        (toMat (p + (q + 1)) (relMat false tol p (q + 1) mbar e s b)) G 0 sigma
        (arpRows postOnly p (q + 1) (relMat false tol p (q + 1) mbar e s b)).get (T s b).kind alpha (betahat ω) lo up points) ∧
      ¬ ∃ flags, relCs false tol mbar e postOnly l T sigma alpha (betahat ω) lo up points = some flags ∧ flags[i]? = some true} ≤ alpha := by
  obtain ⟨s0, hs1, hs2, hm⟩ := hmax
  refine union_cover P betahat v τ false tol mbar e postOnly l G hG hp T sigma alpha hbeta hT hfirst lo up points h2 i hi hgrid
    ((s0 : ℤ) - p) (refs_mem p e s0 hs1 hs2) (decide (0 ≤ D1 (full p v) s0)) ?_ ha0 ha1
  have hsg : (sgn (decide (0 ≤ D1 (full p v) s0)) : ℝ) * D1 (full p v) s0 = |D1 (full p v) s0| := by
    by_cases h : 0 ≤ D1 (full p v) s0
    · simp [sgn, h, abs_of_nonneg h]
    · have := abs_of_neg (lt_of_not_ge h)
      simp [sgn, h, this]
  have hpoly : PolyRM p (q + 1) mbar s0 (decide (0 ≤ D1 (full p v) s0)) v :=
    (rm_piece_doc p (q + 1) mbar v s0 hs2 _ (by rw [hsg]; exact hm) v fun _ _ => rfl).2 hv
  intro a ha
  unfold relMat at ha
  rw [if_neg (by decide), List.mem_append] at ha
  rcases ha with ha | ha
  · exact (C62_rm_fixed tol h0 h1 p (q + 1) mbar _ s0 (by ring) hs2 _ v).2 hpoly a ha
  · exact (extra_sat p (q + 1) (by omega) e v).2 he a ha

/-- **C232.**  The same for deviations from a linear trend relative to the pre-trend: every violation in the documented set. -/
theorem C232_sdrm_coverage (P : Measure Ω) [IsProbabilityMeasure P] (betahat : Ω → Fin (p + (q + 1)) → ℝ) (v : ℕ → ℝ) (τ : Fin (q + 1) → ℝ)
    (tol : ℝ) (h0 : 0 ≤ tol) (h1 : tol < 1) (mbar : ℝ) (e : Extra) (postOnly : Bool) (l : Fin (q + 1) → ℝ)
    (G : Matrix (Fin (q + 1)) (Fin (q + 1)) ℝ) (hG : constructGamma l = some G) (hp : 2 ≤ p)
    (T : ∀ s b, Tools q (relMat true tol p (q + 1) mbar e s b) (arpRows postOnly p (q + 1) (relMat true tol p (q + 1) mbar e s b)))
    (sigma : Matrix (Fin (p + (q + 1))) (Fin (p + (q + 1))) ℝ) (alpha : ℝ) (hbeta : GaussVec P betahat (trueBeta p q v τ) sigma)
    (hT : ∀ s ∈ sRangeSDRM p, ∀ b, ToolsOk (p := p) _ _ (T s b) G sigma)
    (hfirst : ∀ s ∈ sRangeSDRM p, ∀ b, FirstStage P betahat (trueBeta p q v τ) sigma (toMat (p + (q + 1)) (relMat true tol p (q + 1) mbar e s b)) G
      (arpRows postOnly p (q + 1) (relMat true tol p (q + 1) mbar e s b)).get alpha (l ⬝ᵥ τ) (T s b).kind)
    (hv : v ∈ DeltaSDRM p (q + 1) mbar) (he : e.Holds p (q + 1) v)
    (lo up : ℝ) (points : ℕ) (h2 : 2 ≤ points) (i : ℕ) (hi : i < points) (hgrid : l ⬝ᵥ τ = gridAt lo up points i)
    (ha0 : 0 < alpha) (ha1 : alpha < 1) :
    P.real {ω | (∀ s ∈ sRangeSDRM p, ∀ b, ContiguousAccept (T s b).solve (T s b).dual
        (toMat (p + (q + 1)) (relMat true tol p (q + 1) mbar e s b)) G 0 sigma
        (arpRows postOnly p (q + 1) (relMat true tol p (q + 1) mbar e s b)).get (T s b).kind alpha (betahat ω) lo up points) ∧
      ¬ ∃ flags, relCs true tol mbar e postOnly l T sigma alpha (betahat ω) lo up points = some flags ∧ flags[i]? = some true} ≤ alpha := by
  obtain ⟨s, hs, b, hsat⟩ := (C62_sdrm_search tol h0 h1 p (q + 1) mbar v).2 hv
  refine union_cover P betahat v τ true tol mbar e postOnly l G hG hp T sigma alpha hbeta hT hfirst lo up points h2 i hi hgrid
    s hs b ?_ ha0 ha1
  intro a ha
  unfold relMat at ha
  rw [if_pos rfl, List.mem_append] at ha
  rcases ha with ha | ha
  · exact hsat a ha
  · exact (extra_sat p (q + 1) (by omega) e v).2 he a ha

/-- **C232.**  With fewer than two pre-periods no confidence set is returned (an error is raised), whatever the other arguments. -/
theorem C232_short_pre (second : Bool) (tol : ℝ) (mbar : ℝ) (e : Extra) (postOnly : Bool) (l : Fin (q + 1) → ℝ)
    (T : ∀ s b, Tools q (relMat second tol p (q + 1) mbar e s b) (arpRows postOnly p (q + 1) (relMat second tol p (q + 1) mbar e s b)))
    (sigma : Matrix (Fin (p + (q + 1))) (Fin (p + (q + 1))) ℝ) (alpha : ℝ) (betahat : Fin (p + (q + 1)) → ℝ) (lo up : ℝ) (points : ℕ)
    (hp : p ≤ 1) : relCs second tol mbar e postOnly l T sigma alpha betahat lo up points = none := if_pos (by omega)

end Verif.Honest
