import Verif.Honest.ArpFin

/-!
# Size of the conditional test with nuisance parameters
-/

set_option linter.unusedSectionVars false
set_option linter.unusedSimpArgs false

namespace Verif.Honest

open MeasureTheory ProbabilityTheory Finset Matrix

variable {R r k : ℕ} {Ω : Type*} [MeasurableSpace Ω]

/-! ## Assumptions -/

/-- The moments are regular: the covariance matrix is symmetric and positive semi-definite, every inequality of the program has a
positive variance; at the vertices of the dual program, no weight and no variance lies between zero and the thresholds of the code, and
two vertices with positive variances are not perfectly tied. -/
structure RegularLp (S : Matrix (Fin R) (Fin R) ℝ) (X : Matrix (Fin R) (Fin k) ℝ) (rows : Fin r → Fin R) : Prop where
  symm : ∀ i j, S i j = S j i
  psd : ∀ c : Fin R → ℝ, 0 ≤ c ⬝ᵥ (S *ᵥ c)
  pos : ∀ t, 0 < S (rows t) (rows t)
  weights : ∀ g ∈ DualVertex (S.submatrix rows rows) (X.submatrix rows id), ∀ t, g t = 0 ∨ 1 / 10 ^ 6 < g t
  var : ∀ g ∈ DualVertex (S.submatrix rows rows) (X.submatrix rows id),
    g ⬝ᵥ (S.submatrix rows rows *ᵥ g) = 0 ∨ 1 / 2 ^ 52 < g ⬝ᵥ (S.submatrix rows rows *ᵥ g)
  sep : ∀ g ∈ DualVertex (S.submatrix rows rows) (X.submatrix rows id), ∀ g' ∈ DualVertex (S.submatrix rows rows) (X.submatrix rows id),
    g ≠ g' → 0 < g ⬝ᵥ (S.submatrix rows rows *ᵥ g) → 0 < g' ⬝ᵥ (S.submatrix rows rows *ᵥ g') →
    0 < (g - g') ⬝ᵥ (S.submatrix rows rows *ᵥ (g - g'))

/-- The search for the truncation points of a degenerate optimal vertex is exact: they are the ends of the set of values of the
statistic for which the vertex stays optimal, given the residual. -/
def DualOk (dual : ℝ → (Fin r → ℝ) → (Fin r → ℝ) → Bnd ℝ × Bnd ℝ) (S : Matrix (Fin r) (Fin r) ℝ) (X : Matrix (Fin r) (Fin k) ℝ) : Prop :=
  ∀ y, ∀ g ∈ DualVertex S X, OptAt S X y g → 0 < g ⬝ᵥ (S *ᵥ g) →
    ¬(FullRank X (univ.filter fun i => 1 / 10 ^ 6 < g i) ∧ (univ.filter fun i => 1 / 10 ^ 6 < g i).card = k + 1) →
    (dual (g ⬝ᵥ y) (resFin S g y) g).1 ≠ Bnd.nan ∧ (dual (g ⬝ᵥ y) (resFin S g y) g).2 ≠ Bnd.nan ∧
      truncOpen (dual (g ⬝ᵥ y) (resFin S g y) g).1 (dual (g ⬝ᵥ y) (resFin S g y) g).2 ⊆ {x | OptAt S X (lineAt S g (resFin S g y) x) g} ∧
      {x | OptAt S X (lineAt S g (resFin S g y) x) g} ⊆ truncSet (dual (g ⬝ᵥ y) (resFin S g y) g).1 (dual (g ⬝ᵥ y) (resFin S g y) g).2

/-! ## Truncation points of the first stage -/

/-- Truncation points are exact for an event. -/
structure ExactFor (b : Bnd ℝ × Bnd ℝ) (I : Set ℝ) : Prop where
  lo : b.1 ≠ Bnd.nan
  up : b.2 ≠ Bnd.nan
  sub : truncOpen b.1 b.2 ⊆ I
  sup : I ⊆ truncSet b.1 b.2

theorem open_trunc (lo up : Bnd ℝ) : truncOpen lo up ⊆ truncSet lo up := fun x hx => ⟨okLow_of_in lo x hx.1, okUp_of_in up x hx.2⟩

/-- The event: `g` is optimal and the first stage does not reject. -/
def kindEvent (S : Matrix (Fin R) (Fin R) ℝ) (X : Matrix (Fin R) (Fin k) ℝ) (rows : Fin r → Fin R) (U : Set (Fin R → ℝ)) (g : Fin r → ℝ) :
    Set (ℝ × (Fin R → ℝ)) :=
  {w | OptAt (S.submatrix rows rows) (X.submatrix rows id) (lineAt S (scatter rows g) w.2 w.1 ∘ rows) g ∧
    lineAt S (scatter rows g) w.2 w.1 ∉ U}

theorem kind_exact (S : Matrix (Fin R) (Fin R) ℝ) (X : Matrix (Fin R) (Fin k) ℝ) (rows : Fin r → Fin R) (kind : NKind R)
    (U : Set (Fin R → ℝ)) (hU : ∀ v g, OptAt (S.submatrix rows rows) (X.submatrix rows id) (v ∘ rows) g →
      (v ∈ U ↔ kind.first (g ⬝ᵥ (v ∘ rows)) v)) (g : Fin r → ℝ) (hv : 0 < g ⬝ᵥ (S.submatrix rows rows *ᵥ g)) (v : Fin R → ℝ)
    (hopt : OptAt (S.submatrix rows rows) (X.submatrix rows id) (v ∘ rows) g) (hvU : v ∉ U) (b : Bnd ℝ × Bnd ℝ)
    (hb : ExactFor b {x | OptAt (S.submatrix rows rows) (X.submatrix rows id)
      (lineAt (S.submatrix rows rows) g (resFin (S.submatrix rows rows) g (v ∘ rows)) x) g}) :
    ExactFor (kind.bounds S rows v g b.1 b.2) ((fun x => (x, resFin S (scatter rows g) v)) ⁻¹' kindEvent S X rows U g) := by
  set G := scatter rows g with hG
  have hVG : 0 < G ⬝ᵥ (S *ᵥ G) := by rw [hG, scatter_quad]; exact hv
  have hval : ∀ x, g ⬝ᵥ (lineAt S G (resFin S G v) x ∘ rows) = x := by
    intro x
    rw [← scatter_dot, ← hG, line_dot, dot_dir S G hVG, dot_res S G v hVG]
    ring
  have hev : ∀ x, x ∈ (fun x => (x, resFin S G v)) ⁻¹' kindEvent S X rows U g ↔
      x ∈ {x | OptAt (S.submatrix rows rows) (X.submatrix rows id)
        (lineAt (S.submatrix rows rows) g (resFin (S.submatrix rows rows) g (v ∘ rows)) x) g} ∧
      ¬ kind.first x (lineAt S G (resFin S G v) x) := by
    intro x
    have e := line_rows S rows g v x
    constructor
    · rintro ⟨h1, h2⟩
      have h1' : OptAt (S.submatrix rows rows) (X.submatrix rows id) (lineAt S G (resFin S G v) x ∘ rows) g := h1
      have h3 := (hU _ g h1').not.1 h2
      rw [hval x] at h3
      refine ⟨?_, h3⟩
      show OptAt _ _ _ _
      rw [← e]
      exact h1'
    · rintro ⟨h1, h2⟩
      have h1' : OptAt (S.submatrix rows rows) (X.submatrix rows id) (lineAt S G (resFin S G v) x ∘ rows) g := by
        rw [e]
        exact h1
      refine ⟨h1', (hU _ g h1').not.2 ?_⟩
      rw [hval x]
      exact h2
  have hself : ¬ kind.first (G ⬝ᵥ v) v := by
    have := (hU v g hopt).not.1 hvU
    rwa [← scatter_dot] at this
  cases kind with
  | arp =>
    refine ⟨hb.lo, hb.up, fun x hx => (hev x).2 ⟨hb.sub hx, fun h => h⟩, fun x hx => hb.sup ((hev x).1 hx).1⟩
  | lf kappa cv =>
    have hn : Bnd.fin cv ≠ Bnd.nan := by simp
    refine ⟨hb.lo, minUp_nan _ _ hb.up hn, fun x hx => (hev x).2 ?_, fun x hx => ?_⟩
    · obtain ⟨h1, h2⟩ := hx
      have h2' : (b.2.minUp (Bnd.fin cv)).inUp x := h2
      rw [minUp_in _ _ hb.up hn] at h2'
      refine ⟨hb.sub ⟨h1, h2'.1⟩, ?_⟩
      have : x < cv := h2'.2
      exact not_lt.2 this.le
    · obtain ⟨h1, h2⟩ := (hev x).1 hx
      have := hb.sup h1
      refine ⟨this.1, ?_⟩
      show (b.2.minUp (Bnd.fin cv)).okUp x
      rw [minUp_ok _ _ hb.up hn]
      exact ⟨this.2, not_lt.1 h2⟩
  | flci kappa vbar dbar =>
    set z := resFin S G v with hz
    set L : List (ℝ × ℝ) := [(vbar ⬝ᵥ dirVec S G, dbar.1 - vbar ⬝ᵥ z), (-(vbar ⬝ᵥ dirVec S G), dbar.2 - -(vbar ⬝ᵥ z))] with hL
    have hfirst : ∀ x, ¬ (NKind.flci kappa vbar dbar).first x (lineAt S G z x) ↔ ∀ i ∈ L, i.1 * x ≤ i.2 := by
      intro x
      have e := line_dot S G z vbar x
      simp only [NKind.first, e, hL, List.mem_cons, List.not_mem_nil, or_false, forall_eq_or_imp, forall_eq, not_lt, max_le_iff]
      constructor
      · rintro ⟨h1, h2⟩
        exact ⟨by linarith, by linarith⟩
      · rintro ⟨h1, h2⟩
        exact ⟨by linarith, by linarith⟩
    have h0 : ∀ i ∈ L, i.1 * (G ⬝ᵥ v) ≤ i.2 := by
      refine (hfirst _).1 ?_
      rw [hz, line_self]
      exact hself
    have hsys := trunc_system L (fun i => i.1) (fun i => i.2) (G ⬝ᵥ v) h0
    set f := flciBounds vbar dbar z (dirVec S G) with hf
    have hf' : ∀ x, x ∈ truncSet f.1 f.2 ↔ ∀ i ∈ L, i.1 * x ≤ i.2 := hsys
    have hn1 : f.1 ≠ Bnd.nan := accum_not_nan _ _
    have hn2 : f.2 ≠ Bnd.nan := accum_not_nan _ _
    refine ⟨maxLow_nan _ _ hb.lo hn1, minUp_nan _ _ hb.up hn2, fun x hx => (hev x).2 ?_, fun x hx => ?_⟩
    · obtain ⟨h1, h2⟩ := hx
      have h1' : (b.1.maxLow f.1).inLow x := h1
      have h2' : (b.2.minUp f.2).inUp x := h2
      rw [maxLow_in _ _ hb.lo hn1] at h1'
      rw [minUp_in _ _ hb.up hn2] at h2'
      exact ⟨hb.sub ⟨h1'.1, h2'.1⟩, (hfirst x).2 ((hf' x).1 (open_trunc _ _ ⟨h1'.2, h2'.2⟩))⟩
    · obtain ⟨h1, h2⟩ := (hev x).1 hx
      have a1 := hb.sup h1
      have a2 := (hf' x).2 ((hfirst x).1 h2)
      refine ⟨?_, ?_⟩
      · show (b.1.maxLow f.1).okLow x
        rw [maxLow_ok _ _ hb.lo hn1]
        exact ⟨a1.1, a2.1⟩
      · show (b.2.minUp f.2).okUp x
        rw [minUp_ok _ _ hb.up hn2]
        exact ⟨a1.2, a2.2⟩

/-! ## Truncation points of a non-degenerate vertex -/

open Classical in
theorem primal_exact (S : Matrix (Fin r) (Fin r) ℝ) (X : Matrix (Fin r) (Fin k) ℝ) (g y : Fin r → ℝ) (hopt : OptAt S X y g)
    (hv : 0 < g ⬝ᵥ (S *ᵥ g)) (hw : ∀ i, g i = 0 ∨ tolLambda < g i) (hcard : (bIndex g).card = k + 1)
    (hdet : (wB S X ((bIndex g).orderEmbOfFin hcard)).det ≠ 0) :
    vB S X ((bIndex g).orderEmbOfFin hcard) = g ∧
    ExactFor (primalBounds S X (bIndex g) ((bIndex g).orderEmbOfFin hcard) y) {x | OptAt S X (lineAt S g (resFin S g y) x) g} := by
  set e := (bIndex g).orderEmbOfFin hcard with he
  have hrange : ∀ i, i ∉ Set.range e ↔ i ∉ bIndex g := by
    intro i
    have : Set.range e = (bIndex g : Set (Fin r)) := Finset.range_orderEmbOfFin _ hcard
    rw [this]
    rfl
  have hmem : ∀ i, i ∈ bIndex g ↔ tolLambda < g i := by
    intro i
    simp [bIndex]
  have htol : 0 < tolLambda := by unfold tolLambda; positivity
  have hsup : ∀ i, i ∉ Set.range e → g i = 0 := by
    intro i hi
    rw [hrange, hmem] at hi
    exact (hw i).resolve_right hi
  have hpos : ∀ t, 0 < g (e t) := by
    intro t
    have : e t ∈ bIndex g := Finset.orderEmbOfFin_mem _ hcard t
    rw [hmem] at this
    linarith
  have hvB := vB_eq S X e e.injective hdet g hopt.1 hsup
  refine ⟨hvB, ?_⟩
  set z := resFin S g y with hz
  set x0 := g ⬝ᵥ y with hx0
  have hrho : ∀ i, gammaB S X e i ⬝ᵥ dirVec S g = rhoB S X e i := by
    intro i
    unfold rhoB
    rw [hvB]
    simp only [dotProduct, dirVec]
    rw [sum_div]
    exact sum_congr rfl fun j _ => by ring
  have hevent : ∀ x, OptAt S X (lineAt S g z x) g ↔
      ∀ i ∈ (List.finRange r).filter (fun i => decide (i ∉ bIndex g)), -rhoB S X e i * x ≤ gammaB S X e i ⬝ᵥ z := by
    intro x
    rw [basis_opt S X e e.injective hdet g hopt.1 hsup hpos]
    constructor
    · intro h i hi
      have hi' : i ∉ bIndex g := by simpa using (List.mem_filter.1 hi).2
      have := h i ((hrange i).2 hi')
      rw [line_dot, hrho] at this
      linarith
    · intro h i hi
      have := h i (List.mem_filter.2 ⟨List.mem_finRange i, by simpa using (hrange i).1 hi⟩)
      rw [line_dot, hrho]
      linarith
  have h0 := (hevent x0).1 (by rw [hz, hx0, line_self]; exact hopt)
  have hsys := trunc_system ((List.finRange r).filter fun i => decide (i ∉ bIndex g)) (fun i => -rhoB S X e i)
    (fun i => gammaB S X e i ⬝ᵥ z) x0 h0
  have hcand : ∀ i, rhoB S X e i ≠ 0 → candB S X e y i = gammaB S X e i ⬝ᵥ z / -rhoB S X e i := by
    intro i hi
    unfold candB
    have h1 := line_dot S g z (gammaB S X e i) x0
    rw [hz, hx0, line_self, hrho, ← hz, ← hx0] at h1
    rw [hvB, h1, ← hx0]
    field_simp
    ring
  have e1 : (primalBounds S X (bIndex g) e y).1 =
      accum max ((((List.finRange r).filter fun i => decide (i ∉ bIndex g)).filter fun i => decide (-rhoB S X e i < 0)).map
        fun i => gammaB S X e i ⬝ᵥ z / -rhoB S X e i) Bnd.infinite := by
    unfold primalBounds
    dsimp only
    congr 1
    rw [List.filter_filter]
    have : ((List.finRange r).filter fun i => decide (i ∉ bIndex g ∧ 0 < rhoB S X e i)) =
        (List.finRange r).filter fun i => decide (-rhoB S X e i < 0) && decide (i ∉ bIndex g) := by
      refine List.filter_congr fun i _ => ?_
      rw [← Bool.decide_and]
      congr 1
      rw [neg_lt_zero]
      exact propext and_comm
    rw [this]
    refine List.map_congr_left fun i hi => ?_
    have hi' := (List.mem_filter.1 hi).2
    rw [Bool.and_eq_true, decide_eq_true_eq] at hi'
    exact hcand i (by have := hi'.1; intro h; rw [h] at this; simp at this)
  have e2 : (primalBounds S X (bIndex g) e y).2 =
      accum min ((((List.finRange r).filter fun i => decide (i ∉ bIndex g)).filter fun i => decide (0 < -rhoB S X e i)).map
        fun i => gammaB S X e i ⬝ᵥ z / -rhoB S X e i) Bnd.infinite := by
    unfold primalBounds
    dsimp only
    congr 1
    rw [List.filter_filter]
    have : ((List.finRange r).filter fun i => decide (i ∉ bIndex g ∧ rhoB S X e i < 0)) =
        (List.finRange r).filter fun i => decide (0 < -rhoB S X e i) && decide (i ∉ bIndex g) := by
      refine List.filter_congr fun i _ => ?_
      rw [← Bool.decide_and]
      congr 1
      rw [Left.neg_pos_iff]
      exact propext and_comm
    rw [this]
    refine List.map_congr_left fun i hi => ?_
    have hi' := (List.mem_filter.1 hi).2
    rw [Bool.and_eq_true, decide_eq_true_eq] at hi'
    exact hcand i (by have := hi'.1; intro h; rw [h] at this; simp at this)
  have hset : ∀ x, x ∈ truncSet (primalBounds S X (bIndex g) e y).1 (primalBounds S X (bIndex g) e y).2 ↔
      OptAt S X (lineAt S g z x) g := by
    intro x
    rw [e1, e2, hevent]
    exact hsys x
  refine ⟨accum_not_nan _ _, accum_not_nan _ _, fun x hx => (hset x).1 (open_trunc _ _ hx), fun x hx => (hset x).2 hx⟩

/-! ## What a rejection means -/

theorem second_positive (alpha eta sd : ℝ) (hsd : 0 < sd) (b : Bnd ℝ × Bnd ℝ) (h : secondStage alpha eta sd b = some true) : 0 < eta := by
  classical
  unfold secondStage at h
  split_ifs at h with h1
  · cases hc : norminvp (1 - alpha) (b.1.scale sd) (b.2.scale sd) 0 1 with
    | none => rw [hc] at h; simp at h
    | some c =>
      rw [hc] at h
      simp only [Option.map_some, Option.some.injEq, decide_eq_true_eq] at h
      have : 0 < eta / sd := by
        cases c with
        | negInf => exact h
        | nan => exact h
        | posInf => exact absurd h (fun h => h)
        | fin c => exact lt_of_le_of_lt (le_max_left 0 c) h
      exact (div_pos_iff_of_pos_right hsd).1 this
  · simp at h

theorem second_reject (alpha eta sd : ℝ) (ha0 : 0 < alpha) (ha1 : alpha < 1) (hsd : 0 < sd) (b : Bnd ℝ × Bnd ℝ) (I : Set ℝ)
    (hb : ExactFor b I) (hI : eta ∈ I) (h : secondStage alpha eta sd b = some true) : eta ∈ condReject 0 sd alpha I := by
  classical
  unfold secondStage at h
  split_ifs at h with h1
  · cases hc : norminvp (1 - alpha) (b.1.scale sd) (b.2.scale sd) 0 1 with
    | none => rw [hc] at h; simp at h
    | some c =>
      rw [hc] at h
      simp only [Option.map_some, Option.some.injEq, decide_eq_true_eq] at h
      have hl : b.1.scale sd ≠ Bnd.nan := by have := hb.lo; cases hb1 : b.1 <;> simp_all [Bnd.scale]
      have hu : b.2.scale sd ≠ Bnd.nan := by have := hb.up; cases hb2 : b.2 <;> simp_all [Bnd.scale]
      exact crit_gen sd alpha eta hsd ha0 ha1 b.1 b.2 hb.lo hb.up I hb.sub hb.sup hI c hc
        (max0_below c (norminvp_not_nan _ _ _ _ _ hl hu c hc) _ h)
  · simp at h

open Classical in
/-- A rejection of the second stage comes with a positive statistic. -/
theorem reject_positive (solve : (Fin r → ℝ) → Option (LpSol r k)) (dual : ℝ → (Fin r → ℝ) → (Fin r → ℝ) → Bnd ℝ × Bnd ℝ)
    (S : Matrix (Fin R) (Fin R) ℝ) (X : Matrix (Fin R) (Fin k) ℝ) (rows : Fin r → Fin R) (kind : NKind R) (alpha : ℝ) (y : Fin R → ℝ)
    (hpsd : ∀ c : Fin R → ℝ, 0 ≤ c ⬝ᵥ (S *ᵥ c)) (s : LpSol r k) (hs : solve (y ∘ rows) = some s) (hf : ¬ kind.first s.eta y)
    (h : lpTest solve dual S X rows kind alpha y = some true) : 0 < s.eta := by
  have hq : ∀ g, 0 ≤ g ⬝ᵥ (S.submatrix rows rows *ᵥ g) := fun g => by rw [← scatter_quad]; exact hpsd _
  unfold lpTest at h
  dsimp only at h
  rw [hs] at h
  dsimp only at h
  rw [if_neg hf] at h
  split_ifs at h with h1 h2 h3 h4 h5 h6
  · simpa using h
  · exact second_positive _ _ _ (Real.sqrt_pos.2 (lt_of_le_of_ne (hq _) (Ne.symm h3))) _ h
  · simpa using h
  · refine second_positive _ _ _ (Real.sqrt_pos.2 (lt_of_le_of_ne (hq _) ?_)) _ h
    intro h0
    rw [← h0, abs_zero] at h4
    exact h4 (by unfold floatEps; positivity)
  · refine second_positive _ _ _ (Real.sqrt_pos.2 (lt_of_le_of_ne (hq _) ?_)) _ h
    intro h0
    rw [← h0, abs_zero] at h4
    exact h4 (by unfold floatEps; positivity)

open Classical in
/-- The rejections: of the first stage, ties of two vertices, constant vertices above zero, and rejection regions of single vertices. -/
theorem reject_cases (solve : (Fin r → ℝ) → Option (LpSol r k)) (dual : ℝ → (Fin r → ℝ) → (Fin r → ℝ) → Bnd ℝ × Bnd ℝ)
    (S : Matrix (Fin R) (Fin R) ℝ) (X : Matrix (Fin R) (Fin k) ℝ) (rows : Fin r → Fin R) (kind : NKind R) (alpha : ℝ) (y : Fin R → ℝ)
    (hreg : RegularLp S X rows) (hsol : SolverOk (S.submatrix rows rows) (X.submatrix rows id) solve)
    (hdual : DualOk dual (S.submatrix rows rows) (X.submatrix rows id)) (U : Set (Fin R → ℝ))
    (hU : ∀ v g, OptAt (S.submatrix rows rows) (X.submatrix rows id) (v ∘ rows) g → (v ∈ U ↔ kind.first (g ⬝ᵥ (v ∘ rows)) v))
    (ha0 : 0 < kind.size alpha) (ha1 : kind.size alpha < 1) (h : lpTest solve dual S X rows kind alpha y = some true) :
    y ∈ U ∨
    (∃ g1 ∈ DualVertex (S.submatrix rows rows) (X.submatrix rows id), ∃ g2 ∈ DualVertex (S.submatrix rows rows) (X.submatrix rows id),
      g1 ≠ g2 ∧ 0 < g1 ⬝ᵥ (S.submatrix rows rows *ᵥ g1) ∧ 0 < g2 ⬝ᵥ (S.submatrix rows rows *ᵥ g2) ∧ (g1 - g2) ⬝ᵥ (y ∘ rows) = 0) ∨
    (∃ g ∈ DualVertex (S.submatrix rows rows) (X.submatrix rows id), g ⬝ᵥ (S.submatrix rows rows *ᵥ g) = 0 ∧ 0 < g ⬝ᵥ (y ∘ rows)) ∨
    ∃ g ∈ DualVertex (S.submatrix rows rows) (X.submatrix rows id), 0 < g ⬝ᵥ (S.submatrix rows rows *ᵥ g) ∧
      scatter rows g ⬝ᵥ y ∈ condReject 0 (Real.sqrt (scatter rows g ⬝ᵥ (S *ᵥ scatter rows g))) (kind.size alpha)
        ((fun x => (x, resFin S (scatter rows g) y)) ⁻¹' kindEvent S X rows U g) := by
  set Sa := S.submatrix rows rows with hSa
  set Xa := X.submatrix rows id with hXa
  have hq : ∀ g, 0 ≤ g ⬝ᵥ (Sa *ᵥ g) := fun g => by rw [hSa, ← scatter_quad]; exact hreg.psd _
  have hsd : ∀ t, 0 < sdVec Sa t := fun t => Real.sqrt_pos.2 (hreg.pos t)
  cases hs : solve (y ∘ rows) with
  | none =>
    exfalso
    unfold lpTest at h
    dsimp only at h
    rw [hs] at h
    simp at h
  | some s =>
    have hlp := hsol.opt _ s hs
    have hopt := hlp.optAt
    by_cases hf : kind.first s.eta y
    · left
      rw [hU y s.lam hopt, hlp.value]
      exact hf
    right
    have hyU : y ∉ U := by
      rw [hU y s.lam hopt, hlp.value]
      exact hf
    have hpos := reject_positive solve dual S X rows kind alpha y hreg.psd s hs hf h
    rcases opt_vertex Sa Xa hsd (y ∘ rows) s.lam hopt with hver | ⟨g1, hg1, g2, hg2, hne, ho1, ho2⟩
    · right
      rcases (hq s.lam).lt_or_eq with hvar | hvar
      · right
        refine ⟨s.lam, hver, hvar, ?_⟩
        have hval : scatter rows s.lam ⬝ᵥ y = s.eta := by rw [scatter_dot]; exact hlp.value
        have hmem : scatter rows s.lam ⬝ᵥ y ∈ (fun x => (x, resFin S (scatter rows s.lam) y)) ⁻¹' kindEvent S X rows U s.lam := by
          show OptAt _ _ (lineAt S (scatter rows s.lam) (resFin S (scatter rows s.lam) y) (scatter rows s.lam ⬝ᵥ y) ∘ rows) _ ∧ _ ∉ U
          rw [line_self]
          exact ⟨hopt, hyU⟩
        rw [hval] at hmem ⊢
        rw [scatter_quad]
        have hsd0 : 0 < Real.sqrt (s.lam ⬝ᵥ (Sa *ᵥ s.lam)) := Real.sqrt_pos.2 hvar
        have hw := hreg.weights s.lam hver
        have hbig : 1 / 2 ^ 52 < s.lam ⬝ᵥ (Sa *ᵥ s.lam) := (hreg.var s.lam hver).resolve_left hvar.ne'
        unfold lpTest at h
        dsimp only at h
        rw [hs] at h
        dsimp only at h
        rw [if_neg hf] at h
        split_ifs at h with h1 h2 h3 h4 h5 h6
        · obtain ⟨hvB, hex⟩ := primal_exact Sa Xa s.lam (y ∘ rows) hopt hvar hw h1.2 h2
          rw [hvB] at h3
          exact absurd h3 hvar.ne'
        · obtain ⟨hvB, hex⟩ := primal_exact Sa Xa s.lam (y ∘ rows) hopt hvar hw h1.2 h2
          rw [hvB] at h
          exact second_reject _ _ _ ha0 ha1 hsd0 _ _ (kind_exact S X rows kind U hU s.lam hvar y hopt hyU _ hex) hmem h
        · exfalso
          rw [abs_of_pos hvar] at h4
          unfold floatEps at h4
          linarith
        · exfalso
          unfold floatEps at h6
          linarith
        · obtain ⟨d1, d2, d3, d4⟩ := hdual (y ∘ rows) s.lam hver hopt hvar h1
          have hval' : s.lam ⬝ᵥ (y ∘ rows) = s.eta := hlp.value
          rw [hval'] at d1 d2 d3 d4
          exact second_reject _ _ _ ha0 ha1 hsd0 _ _ (kind_exact S X rows kind U hU s.lam hvar y hopt hyU _ ⟨d1, d2, d3, d4⟩) hmem h
      · left
        exact ⟨s.lam, hver, hvar.symm, by rw [hlp.value]; exact hpos⟩
    · have e1 : g1 ⬝ᵥ (y ∘ rows) = s.eta := by
        rw [← hlp.value]
        exact le_antisymm (hopt.2 g1 hg1.1) (ho1.2 s.lam hopt.1)
      have e2 : g2 ⬝ᵥ (y ∘ rows) = s.eta := by
        rw [← hlp.value]
        exact le_antisymm (hopt.2 g2 hg2.1) (ho2.2 s.lam hopt.1)
      rcases (hq g1).lt_or_eq with hv1 | hv1
      · rcases (hq g2).lt_or_eq with hv2 | hv2
        · left
          exact ⟨g1, hg1, g2, hg2, hne, hv1, hv2, by rw [sub_dotProduct, e1, e2, sub_self]⟩
        · right; left
          exact ⟨g2, hg2, hv2.symm, by rw [e2]; exact hpos⟩
      · right; left
        exact ⟨g1, hg1, hv1.symm, by rw [e1]; exact hpos⟩

/-! ## Probabilities -/

theorem optAt_meas (S : Matrix (Fin r) (Fin r) ℝ) (X : Matrix (Fin r) (Fin k) ℝ) (g : Fin r → ℝ) :
    MeasurableSet {u : Fin r → ℝ | OptAt S X u g} := by
  by_cases hg : g ∈ DualSet S X
  · have e : {u : Fin r → ℝ | OptAt S X u g} = ⋂ g' ∈ DualSet S X, {u | g' ⬝ᵥ u ≤ g ⬝ᵥ u} := by
      ext u
      simp [OptAt, hg]
    rw [e]
    refine IsClosed.measurableSet (isClosed_biInter fun g' _ => isClosed_le ?_ ?_) <;>
      · unfold dotProduct
        fun_prop
  · have e : {u : Fin r → ℝ | OptAt S X u g} = ∅ := by
      ext u
      simp [OptAt, hg]
    rw [e]
    exact MeasurableSet.empty

theorem comp_meas (rows : Fin r → Fin R) : Measurable fun v : Fin R → ℝ => v ∘ rows :=
  measurable_pi_lambda _ fun t => measurable_pi_apply (rows t)

theorem lineAt_meas (S : Matrix (Fin R) (Fin R) ℝ) (g : Fin R → ℝ) : Measurable fun w : ℝ × (Fin R → ℝ) => lineAt S g w.2 w.1 := by
  refine measurable_pi_lambda _ fun j => ?_
  unfold lineAt
  fun_prop

theorem kindEvent_meas (S : Matrix (Fin R) (Fin R) ℝ) (X : Matrix (Fin R) (Fin k) ℝ) (rows : Fin r → Fin R) (U : Set (Fin R → ℝ))
    (hU : MeasurableSet U) (g : Fin r → ℝ) : MeasurableSet (kindEvent S X rows U g) := by
  have h1 : MeasurableSet {w : ℝ × (Fin R → ℝ) | OptAt (S.submatrix rows rows) (X.submatrix rows id)
      (lineAt S (scatter rows g) w.2 w.1 ∘ rows) g} :=
    (optAt_meas _ _ g).preimage ((comp_meas rows).comp (lineAt_meas S (scatter rows g)))
  have h2 : MeasurableSet {w : ℝ × (Fin R → ℝ) | lineAt S (scatter rows g) w.2 w.1 ∉ U} :=
    hU.compl.preimage (lineAt_meas S (scatter rows g))
  exact h1.inter h2

/-- The size of the test: at most the probability of the first stage plus the level of the second times the rest. -/
theorem lp_size_core (ν : Measure (Fin R → ℝ)) (mu : Fin R → ℝ) (solve : (Fin r → ℝ) → Option (LpSol r k))
    (dual : ℝ → (Fin r → ℝ) → (Fin r → ℝ) → Bnd ℝ × Bnd ℝ)
    (S : Matrix (Fin R) (Fin R) ℝ) (X : Matrix (Fin R) (Fin k) ℝ) (rows : Fin r → Fin R) (kind : NKind R) (alpha : ℝ)
    (hν : GaussVec ν (fun v => v) mu S) (hnull : NullLp (X.submatrix rows id) (mu ∘ rows))
    (hreg : RegularLp S X rows) (hsol : SolverOk (S.submatrix rows rows) (X.submatrix rows id) solve)
    (hdual : DualOk dual (S.submatrix rows rows) (X.submatrix rows id)) (U : Set (Fin R → ℝ)) (hUm : MeasurableSet U)
    (hU : ∀ v g, OptAt (S.submatrix rows rows) (X.submatrix rows id) (v ∘ rows) g → (v ∈ U ↔ kind.first (g ⬝ᵥ (v ∘ rows)) v))
    (ha0 : 0 < kind.size alpha) (ha1 : kind.size alpha < 1) :
    ν {v | lpTest solve dual S X rows kind alpha v = some true} ≤ ν U + ENNReal.ofReal (kind.size alpha) * ν Uᶜ := by
  classical
  set Sa := S.submatrix rows rows with hSa
  set Xa := X.submatrix rows id with hXa
  have hfin := vertex_finite Sa Xa
  set V := hfin.toFinset with hV
  have hVm : ∀ g, g ∈ V ↔ g ∈ DualVertex Sa Xa := fun g => hfin.mem_toFinset
  have hnullg : ∀ g ∈ DualSet Sa Xa, scatter rows g ⬝ᵥ mu ≤ 0 := fun g hg => by
    rw [scatter_dot]
    exact null_dual Sa Xa (mu ∘ rows) g hg hnull
  have hvarg : ∀ g, scatter rows g ⬝ᵥ (S *ᵥ scatter rows g) = g ⬝ᵥ (Sa *ᵥ g) := fun g => scatter_quad S rows g
  set E : (Fin r → ℝ) → Set (Fin R → ℝ) := fun g => {v | OptAt Sa Xa (v ∘ rows) g ∧ v ∉ U} with hE
  set V1 := V.filter fun g => 0 < g ⬝ᵥ (Sa *ᵥ g) with hV1
  set T1 : Set (Fin R → ℝ) := ⋃ p ∈ (V1 ×ˢ V1).filter (fun p => p.1 ≠ p.2), {v | scatter rows (p.1 - p.2) ⬝ᵥ v = 0} with hT1
  set T2 : Set (Fin R → ℝ) := ⋃ g ∈ V.filter (fun g => g ⬝ᵥ (Sa *ᵥ g) = 0), {v | 0 < scatter rows g ⬝ᵥ v} with hT2
  set T3 : Set (Fin R → ℝ) := ⋃ g ∈ V1, {v | scatter rows g ⬝ᵥ v ∈ condReject 0 (Real.sqrt (scatter rows g ⬝ᵥ (S *ᵥ scatter rows g)))
    (kind.size alpha) ((fun x => (x, resFin S (scatter rows g) v)) ⁻¹' kindEvent S X rows U g)} with hT3
  have hsub : {v | lpTest solve dual S X rows kind alpha v = some true} ⊆ U ∪ (T1 ∪ (T2 ∪ T3)) := by
    intro v hv
    rcases reject_cases solve dual S X rows kind alpha v hreg hsol hdual U hU ha0 ha1 hv with
      h | ⟨g1, hg1, g2, hg2, hne, hv1, hv2, ht⟩ | ⟨g, hg, h1, h2⟩ | ⟨g, hg, h1, h2⟩
    · exact Or.inl h
    · refine Or.inr (Or.inl ?_)
      rw [hT1, Set.mem_iUnion₂]
      refine ⟨(g1, g2), ?_, ?_⟩
      · simp only [hV1, Finset.mem_filter, Finset.mem_product, hVm]
        exact ⟨⟨⟨hg1, hv1⟩, hg2, hv2⟩, hne⟩
      · show scatter rows (g1 - g2) ⬝ᵥ v = 0
        rw [scatter_dot]
        exact ht
    · refine Or.inr (Or.inr (Or.inl ?_))
      rw [hT2, Set.mem_iUnion₂]
      refine ⟨g, Finset.mem_filter.2 ⟨(hVm g).2 hg, h1⟩, ?_⟩
      show 0 < scatter rows g ⬝ᵥ v
      rw [scatter_dot]
      exact h2
    · refine Or.inr (Or.inr (Or.inr ?_))
      rw [hT3, Set.mem_iUnion₂]
      exact ⟨g, Finset.mem_filter.2 ⟨(hVm g).2 hg, h1⟩, h2⟩
  have hT1z : ν T1 = 0 := by
    rw [hT1]
    refine le_antisymm ((measure_biUnion_finset_le _ _).trans (le_of_eq (Finset.sum_eq_zero ?_))) bot_le
    rintro ⟨g1, g2⟩ hp
    rw [Finset.mem_filter, Finset.mem_product, hV1] at hp
    simp only [Finset.mem_filter, hVm] at hp
    refine tie_null ν mu S hν _ ?_
    rw [hvarg]
    exact hreg.sep g1 hp.1.1.1 g2 hp.1.2.1 hp.2 hp.1.1.2 hp.1.2.2
  have hT2z : ν T2 = 0 := by
    rw [hT2]
    refine le_antisymm ((measure_biUnion_finset_le _ _).trans (le_of_eq (Finset.sum_eq_zero ?_))) bot_le
    intro g hg
    rw [Finset.mem_filter, hVm] at hg
    exact const_null ν mu S hν _ (by rw [hvarg]; exact hg.2) (hnullg g hg.1.1)
  have hEeq : ∀ g, {v | (scatter rows g ⬝ᵥ v, resFin S (scatter rows g) v) ∈ kindEvent S X rows U g} = E g := by
    intro g
    ext v
    show OptAt _ _ (lineAt S (scatter rows g) (resFin S (scatter rows g) v) (scatter rows g ⬝ᵥ v) ∘ rows) g ∧
      lineAt S (scatter rows g) (resFin S (scatter rows g) v) (scatter rows g ⬝ᵥ v) ∉ U ↔ _
    rw [line_self]
    rfl
  have hEm : ∀ g, MeasurableSet (E g) := fun g => ((optAt_meas Sa Xa g).preimage (comp_meas rows)).inter hUm.compl
  have hT3le : ν T3 ≤ ENNReal.ofReal (kind.size alpha) * ν Uᶜ := by
    refine (measure_biUnion_finset_le V1 _).trans ?_
    have h1 : ∀ g ∈ V1, ν {v | scatter rows g ⬝ᵥ v ∈ condReject 0 (Real.sqrt (scatter rows g ⬝ᵥ (S *ᵥ scatter rows g)))
        (kind.size alpha) ((fun x => (x, resFin S (scatter rows g) v)) ⁻¹' kindEvent S X rows U g)} ≤
        ENNReal.ofReal (kind.size alpha) * ν (E g) := by
      intro g hg
      rw [hV1, Finset.mem_filter, hVm] at hg
      rw [← hEeq g]
      exact core_fin ν mu S hν hreg.symm hreg.psd (scatter rows g) (by rw [hvarg]; exact hg.2) (hnullg g hg.1.1) _ ha0 ha1 _
        (kindEvent_meas S X rows U hUm g)
    refine (Finset.sum_le_sum h1).trans ?_
    rw [← Finset.mul_sum]
    refine mul_le_mul_right ?_ _
    rw [← measure_biUnion_finset₀ (s := V1) (f := E) ?_ (fun g _ => (hEm g).nullMeasurableSet)]
    · refine measure_mono ?_
      intro v hv
      obtain ⟨g, _, hg⟩ := Set.mem_iUnion₂.1 hv
      exact hg.2
    · intro g1 hg1 g2 hg2 hne
      have a1 : g1 ∈ V1 := hg1
      have a2 : g2 ∈ V1 := hg2
      rw [hV1, Finset.mem_filter, hVm] at a1 a2
      show ν (E g1 ∩ E g2) = 0
      refine measure_mono_null ?_ (tie_null ν mu S hν (scatter rows (g1 - g2)) (by
        rw [hvarg]
        exact hreg.sep g1 a1.1 g2 a2.1 hne a1.2 a2.2))
      rintro v ⟨⟨h1, _⟩, h2, _⟩
      show scatter rows (g1 - g2) ⬝ᵥ v = 0
      rw [scatter_dot, sub_dotProduct, sub_eq_zero]
      exact le_antisymm (h2.2 g1 h1.1) (h1.2 g2 h2.1)
  calc ν {v | lpTest solve dual S X rows kind alpha v = some true} ≤ ν (U ∪ (T1 ∪ (T2 ∪ T3))) := measure_mono hsub
    _ ≤ ν U + (ν T1 + (ν T2 + ν T3)) :=
      (measure_union_le _ _).trans (add_le_add le_rfl ((measure_union_le _ _).trans (add_le_add le_rfl (measure_union_le _ _))))
    _ = ν U + ν T3 := by rw [hT1z, hT2z, zero_add, zero_add]
    _ ≤ _ := add_le_add le_rfl hT3le

end Verif.Honest
