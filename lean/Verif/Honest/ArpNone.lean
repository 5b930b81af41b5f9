import Verif.Honest.ArpNuisCi

/-!
# C170, C171: `lp_conditional_test` without nuisance parameters; the default grid and the length of `compute_arp_nuisance_ci`
-/

set_option linter.unusedSectionVars false
set_option linter.unusedSimpArgs false

namespace Verif.Honest

open MeasureTheory ProbabilityTheory Finset Matrix

variable {p q R r : ℕ} {Ω : Type*} [MeasurableSpace Ω]

/-! ## Model -/

/-- `eta_star = np.max(y_t_arp / sd_vec)`, `arp_nuisance.py:340-341`, for at least one row with positive variance. -/
noncomputable def etaNone (S : Matrix (Fin R) (Fin R) ℝ) (rows : Fin (r + 1) → Fin R) (y : Fin R → ℝ) : ℝ :=
  univ.sup' univ_nonempty fun t => y (rows t) / sdVec (S.submatrix rows rows) t

/-- `lp_conditional_test` with `x_t=None` rejects, `arp_nuisance.py:338-365`: the first stage of `kind`, then the comparison of the
maximum with the quantile of one standard normal variable. -/
noncomputable def RejectsNone (S : Matrix (Fin R) (Fin R) ℝ) (rows : Fin (r + 1) → Fin R) (kind : NKind R) (alpha : ℝ) (y : Fin R → ℝ) :
    Prop :=
  kind.first (etaNone S rows y) y ∨ ppf (1 - kind.size alpha) < etaNone S rows y

/-- `grid_lengths[i]`, `arp_nuisance.py:205-206`: `g` is the grid of `n` values. -/
noncomputable def gridLen (g : ℕ → ℝ) (n i : ℕ) : ℝ :=
  if i = 0 then 1 / 2 * (g 1 - g 0)
  else if i = n - 1 then 1 / 2 * (g (n - 1) - g (n - 2))
  else 1 / 2 * ((g i - g (i - 1)) + (g (i + 1) - g i))

/-- `length`, `arp_nuisance.py:193-195,207`, with the accepted positions from `lb` to `ub`. -/
noncomputable def ciLength (g : ℕ → ℝ) (n lb ub : ℕ) : ℝ := ∑ i ∈ range n, (if lb ≤ i ∧ i < ub + 1 then 1 else 0) * gridLen g n i

/-! ## C170 -/

theorem etaNone_lt (S : Matrix (Fin R) (Fin R) ℝ) (rows : Fin (r + 1) → Fin R) (y : Fin R → ℝ) (c : ℝ) :
    c < etaNone S rows y ↔ ∃ t, c < y (rows t) / Real.sqrt (S (rows t) (rows t)) := by
  unfold etaNone
  rw [Finset.lt_sup'_iff]
  simp [sdVec]

/-- One inequality: the probability that the standardised mean exceeds `c`. -/
theorem single_tail (P : Measure Ω) (y : Ω → Fin R → ℝ) (mu : Fin R → ℝ) (S : Matrix (Fin R) (Fin R) ℝ) (hy : GaussVec P y mu S) (j : Fin R)
    (hpos : 0 < S j j) (hmu : mu j ≤ 0) (c : ℝ) : P.real {ω | c < y ω j / Real.sqrt (S j j)} ≤ 1 - Phi c := by
  have h := hy (Pi.single j 1)
  have e1 : ∀ v : Fin R → ℝ, (Pi.single j 1 : Fin R → ℝ) ⬝ᵥ v = v j := fun v => by simp
  have e2 : (Pi.single j 1 : Fin R → ℝ) ⬝ᵥ (S *ᵥ Pi.single j 1) = S j j := by
    rw [e1]; simp
  simp only [e1] at h
  have e3 : (S *ᵥ Pi.single j 1) j = S j j := by simp
  rw [e3] at h
  have hs : 0 < Real.sqrt (S j j) := Real.sqrt_pos.2 hpos
  have hm : AEMeasurable (fun ω => y ω j) P := aemeasurable_of_map_neZero (by rw [h]; infer_instance)
  have hset : {ω | c < y ω j / Real.sqrt (S j j)} = (fun ω => y ω j) ⁻¹' Set.Ioi (c * Real.sqrt (S j j)) := by
    ext ω
    simp only [Set.mem_ofPred_eq, Set.mem_preimage, Set.mem_Ioi, lt_div_iff₀ hs]
  rw [hset, measureReal_def, ← Measure.map_apply_of_aemeasurable hm measurableSet_Ioi, h, ← measureReal_def]
  have hl := normalLaw_Ioi (mu j) (Real.sqrt (S j j)) hs (c * Real.sqrt (S j j))
  unfold normalLaw at hl
  rw [Real.sq_sqrt hpos.le] at hl
  rw [hl]
  have : c ≤ (c * Real.sqrt (S j j) - mu j) / Real.sqrt (S j j) := by
    rw [le_div_iff₀ hs]; linarith
  linarith [phi_mono this]

/-- C170.  Without nuisance parameters the test rejects means that satisfy the `r + 1` inequalities with probability at most
`(r + 1) alpha`: at most `alpha` for a single inequality. -/
theorem C170_bound (P : Measure Ω) [IsProbabilityMeasure P] (y : Ω → Fin R → ℝ) (mu : Fin R → ℝ) (S : Matrix (Fin R) (Fin R) ℝ)
    (rows : Fin (r + 1) → Fin R) (alpha : ℝ) (hy : GaussVec P y mu S) (hpos : ∀ t, 0 < S (rows t) (rows t)) (hmu : ∀ t, mu (rows t) ≤ 0)
    (ha0 : 0 < alpha) (ha1 : alpha < 1) : P.real {ω | RejectsNone S rows NKind.arp alpha (y ω)} ≤ (r + 1) * alpha := by
  have hsub : {ω | RejectsNone S rows NKind.arp alpha (y ω)} ⊆
      ⋃ t ∈ (univ : Finset (Fin (r + 1))), {ω | ppf (1 - alpha) < y ω (rows t) / Real.sqrt (S (rows t) (rows t))} := by
    rintro ω (h | h)
    · exact h.elim
    · obtain ⟨t, ht⟩ := (etaNone_lt S rows (y ω) _).1 h
      exact Set.mem_biUnion (mem_coe.2 (mem_univ t)) ht
  refine (measureReal_mono hsub (measure_ne_top P _)).trans ((measureReal_biUnion_finset_le _ _).trans ?_)
  have h1 : ∀ t ∈ (univ : Finset (Fin (r + 1))), P.real {ω | ppf (1 - alpha) < y ω (rows t) / Real.sqrt (S (rows t) (rows t))} ≤ alpha := by
    intro t _
    have := single_tail P y mu S hy (rows t) (hpos t) (hmu t) (ppf (1 - alpha))
    rw [phi_ppf _ (by linarith) (by linarith)] at this
    linarith
  refine (sum_le_sum h1).trans (le_of_eq ?_)
  simp

/-- C170 (violation).  With `r + 1` independent inequalities, all of them binding, the test rejects with probability
`1 - (1 - alpha) ^ (r + 1)`, which is larger than `alpha` as soon as there are two. -/
theorem C170_size_violated (alpha : ℝ) (ha0 : 0 < alpha) (ha1 : alpha < 1) (r : ℕ) :
    (stdNormals (r + 1)).real {z | RejectsNone (1 : Matrix (Fin (r + 1)) (Fin (r + 1)) ℝ) id NKind.arp alpha z} = 1 - (1 - alpha) ^ (r + 1) ∧
      (1 ≤ r → alpha < 1 - (1 - alpha) ^ (r + 1)) := by
  have : IsProbabilityMeasure (stdNormals (r + 1)) := by unfold stdNormals; infer_instance
  constructor
  · have hset : {z : Fin (r + 1) → ℝ | RejectsNone (1 : Matrix (Fin (r + 1)) (Fin (r + 1)) ℝ) id NKind.arp alpha z} =
        (Set.pi Set.univ fun _ => Set.Iic (ppf (1 - alpha)))ᶜ := by
      ext z
      simp only [Set.mem_ofPred_eq, Set.mem_compl_iff, Set.mem_pi, Set.mem_univ, true_implies, Set.mem_Iic, not_forall, not_le]
      constructor
      · rintro (h | h)
        · exact h.elim
        · obtain ⟨t, ht⟩ := (etaNone_lt _ _ _ _).1 h
          exact ⟨t, by simpa [NKind.size] using ht⟩
      · rintro ⟨t, ht⟩
        exact Or.inr ((etaNone_lt _ _ _ _).2 ⟨t, by simpa [NKind.size] using ht⟩)
    rw [hset, probReal_compl_eq_one_sub (MeasurableSet.univ_pi fun _ => measurableSet_Iic)]
    congr 1
    rw [measureReal_def, stdNormals, Measure.pi_pi, prod_const, card_univ, Fintype.card_fin, ENNReal.toReal_pow, ← measureReal_def]
    have : (gaussianReal 0 1).real (Set.Iic (ppf (1 - alpha))) = 1 - alpha := phi_ppf _ (by linarith) (by linarith)
    rw [this]
  · intro hr
    have h : (1 - alpha) ^ (r + 1) < (1 - alpha) ^ 1 := pow_lt_pow_right_of_lt_one₀ (by linarith) (by linarith) (by omega)
    linarith [pow_one (1 - alpha)]

/-- Three means, one of them positive but not tested: rejected with probability at most 10%; in the case with two binding inequalities the
probability is 9.75%. -/
example : (stdNormals 3).real {z | RejectsNone (1 : Matrix (Fin 3) (Fin 3) ℝ) (![0, 2] : Fin 2 → Fin 3) NKind.arp (1 / 20)
      (fun i => (![-1, 7, 0] : Fin 3 → ℝ) i + z i)} ≤ 1 / 10 ∧
    (stdNormals 2).real {z | RejectsNone (1 : Matrix (Fin 2) (Fin 2) ℝ) id NKind.arp (1 / 20) z} = 39 / 400 := by
  have : IsProbabilityMeasure (stdNormals 3) := by unfold stdNormals; infer_instance
  constructor
  · refine (C170_bound (stdNormals 3) _ ![-1, 7, 0] 1 ![0, 2] (1 / 20) (gauss3 _) (fun t => by simp) (fun t => ?_) (by norm_num)
      (by norm_num)).trans (by norm_num)
    fin_cases t
    · norm_num
    · exact le_of_eq rfl
  · rw [(C170_size_violated (1 / 20) (by norm_num) (by norm_num) 1).1]
    norm_num

/-! ## C171 -/

theorem search_lt (test : ℕ → Bool) (n : ℕ) (hn : 0 < n) (lb ub : ℕ) (h : searchBounds test n = some (some (lb, ub))) :
    lb < n ∧ ub < n := by
  obtain ⟨rr, hr, -, h2⟩ := C163_ends test n hn
  rw [h] at hr
  cases hr
  have := h2 lb ub rfl
  omega

/-- C171.  With an explicit or default grid, what is reported lies on the grid: the interval covers only values between the ends. -/
theorem C171_within (solve : (Fin r → ℝ) → Option (LpSol r q)) (dual : ℝ → (Fin r → ℝ) → (Fin r → ℝ) → Bnd ℝ × Bnd ℝ)
    (A : Matrix (Fin R) (Fin (p + (q + 1))) ℝ) (d : Fin R → ℝ) (l : Fin (q + 1) → ℝ)
    (sigma : Matrix (Fin (p + (q + 1))) (Fin (p + (q + 1))) ℝ) (rows : Fin r → Fin R) (kind : CiKind R) (alpha : ℝ)
    (betahat : Fin (p + (q + 1)) → ℝ) (lo up : Option ℝ) (points : ℕ) (c : NuisCI)
    (hle : (nuisRange sigma l lo up).1 ≤ (nuisRange sigma l lo up).2)
    (h : nuisCi solve dual A d l sigma rows kind alpha betahat lo up points = some c) (theta : ℝ) (hc : c.Covers theta) :
    2 ≤ points ∧ (nuisRange sigma l lo up).1 ≤ theta ∧ theta ≤ (nuisRange sigma l lo up).2 := by
  classical
  unfold nuisCi at h
  obtain ⟨G, -, h⟩ := Option.bind_eq_some_iff.1 h
  dsimp only at h
  split_ifs at h with h0
  have hp : 2 ≤ points := by
    by_contra hp
    exact h0 (Or.inl (by omega))
  refine ⟨hp, ?_⟩
  obtain ⟨b, hb, rfl⟩ := Option.map_eq_some_iff.1 h
  obtain ⟨a1, a2, h1, h2, h3⟩ := hc
  cases b with
  | none => cases h1
  | some b =>
    obtain ⟨lb, ub⟩ := b
    obtain ⟨hlb, hub⟩ := search_lt _ points (by omega) lb ub hb
    simp only [Option.some.injEq, Prod.mk.injEq] at h1
    obtain ⟨rfl, rfl⟩ := h1
    have hw : ∀ i < points, (nuisRange sigma l lo up).1 ≤ (linGrid (nuisRange sigma l lo up).1 (nuisRange sigma l lo up).2 points).getD i 0 ∧
        (linGrid (nuisRange sigma l lo up).1 (nuisRange sigma l lo up).2 points).getD i 0 ≤ (nuisRange sigma l lo up).2 := by
      intro i hi
      rw [grid_value _ _ points i hp hi]
      have hpr : (0 : ℝ) < (points : ℝ) - 1 := by
        have : (2 : ℝ) ≤ points := by exact_mod_cast hp
        linarith
      have hi' : (i : ℝ) ≤ (points : ℝ) - 1 := by
        have : ((i + 1 : ℕ) : ℝ) ≤ points := by exact_mod_cast hi
        push_cast at this
        linarith
      have hd : 0 ≤ ((nuisRange sigma l lo up).2 - (nuisRange sigma l lo up).1) / ((points : ℝ) - 1) := div_nonneg (by linarith) hpr.le
      have hm := mul_le_mul_of_nonneg_right hi' hd
      rw [mul_div_cancel₀ _ hpr.ne'] at hm
      have := mul_nonneg (Nat.cast_nonneg (α := ℝ) i) hd
      constructor <;> linarith
    exact ⟨(hw lb hlb).1.trans h2, h3.trans (hw ub hub).2⟩

/-- C171 (violation).  The default grid is centred at zero, not at the estimate: whatever the data, a value further than twenty standard
errors from zero is never covered. -/
theorem C171_default_violated (solve : (Fin r → ℝ) → Option (LpSol r q)) (dual : ℝ → (Fin r → ℝ) → (Fin r → ℝ) → Bnd ℝ × Bnd ℝ)
    (A : Matrix (Fin R) (Fin (p + (q + 1))) ℝ) (d : Fin R → ℝ) (l : Fin (q + 1) → ℝ)
    (sigma : Matrix (Fin (p + (q + 1))) (Fin (p + (q + 1))) ℝ) (rows : Fin r → Fin R) (kind : CiKind R) (alpha : ℝ)
    (betahat : Fin (p + (q + 1)) → ℝ) (points : ℕ) (c : NuisCI)
    (h : nuisCi solve dual A d l sigma rows kind alpha betahat none none points = some c) (theta : ℝ)
    (hfar : 20 * Real.sqrt (l ⬝ᵥ (sigma.submatrix (Fin.natAdd p) (Fin.natAdd p) *ᵥ l)) < |theta|) : ¬ c.Covers theta := by
  intro hc
  have h0 := Real.sqrt_nonneg (l ⬝ᵥ (sigma.submatrix (Fin.natAdd p) (Fin.natAdd p) *ᵥ l))
  obtain ⟨-, h1, h2⟩ := C171_within solve dual A d l sigma rows kind alpha betahat none none points c (by
    show -20 * Real.sqrt (l ⬝ᵥ (sigma.submatrix (Fin.natAdd p) (Fin.natAdd p) *ᵥ l)) ≤ 20 * Real.sqrt (l ⬝ᵥ (sigma.submatrix (Fin.natAdd p) (Fin.natAdd p) *ᵥ l))
    linarith) h theta hc
  have h1' : -20 * Real.sqrt (l ⬝ᵥ (sigma.submatrix (Fin.natAdd p) (Fin.natAdd p) *ᵥ l)) ≤ theta := h1
  have h2' : theta ≤ 20 * Real.sqrt (l ⬝ᵥ (sigma.submatrix (Fin.natAdd p) (Fin.natAdd p) *ᵥ l)) := h2
  rw [lt_abs] at hfar
  rcases hfar with h | h <;> linarith

/-- The clamped neighbours of a grid position give the same lengths. -/
theorem gridLen_eq (g : ℕ → ℝ) (n i : ℕ) (hn : 2 ≤ n) (hi : i < n) : gridLen g n i = (g (min (i + 1) (n - 1)) - g (i - 1)) / 2 := by
  unfold gridLen
  split_ifs with h1 h2
  · subst h1
    rw [min_eq_left (by omega)]
    ring
  · subst h2
    rw [min_eq_right (by omega)]
    have : n - 1 - 1 = n - 2 := by omega
    rw [this]
    ring
  · rw [min_eq_left (by omega)]
    ring

/-- C171.  The reported length is the length of the interval extended on both sides by half of the distance to the neighbouring grid value
(not beyond the ends of the grid). -/
theorem C171_length (g : ℕ → ℝ) (n lb ub : ℕ) (hn : 2 ≤ n) (h1 : lb ≤ ub) (h2 : ub < n) :
    ciLength g n lb ub = (g ub + g (min (ub + 1) (n - 1))) / 2 - (g lb + g (lb - 1)) / 2 := by
  unfold ciLength
  have e1 : ∑ i ∈ range n, (if lb ≤ i ∧ i < ub + 1 then 1 else 0) * gridLen g n i = ∑ i ∈ Ico lb (ub + 1), gridLen g n i := by
    have : Ico lb (ub + 1) = (range n).filter fun i => lb ≤ i ∧ i < ub + 1 := by
      ext i
      simp only [mem_Ico, mem_filter, mem_range]
      omega
    rw [this, sum_filter]
    exact sum_congr rfl fun i _ => by split_ifs <;> simp
  rw [e1]
  clear e1
  induction ub, h1 using Nat.le_induction with
  | base =>
    rw [Nat.Ico_succ_singleton, sum_singleton, gridLen_eq g n lb hn h2]
    ring
  | succ u hu ih =>
    rw [sum_Ico_succ_top (by omega), ih (by omega), gridLen_eq g n (u + 1) hn h2, min_eq_left (by omega : u + 1 ≤ n - 1)]
    have : u + 1 - 1 = u := rfl
    rw [this]
    ring

/-- For an increasing grid the length is at least that of the interval. -/
theorem C171_length_ge (g : ℕ → ℝ) (hg : Monotone g) (n lb ub : ℕ) (hn : 2 ≤ n) (h1 : lb ≤ ub) (h2 : ub < n) :
    g ub - g lb ≤ ciLength g n lb ub := by
  rw [C171_length g n lb ub hn h1 h2]
  have a := hg (le_min (Nat.le_succ ub) (by omega : ub ≤ n - 1))
  have b := hg (Nat.sub_le lb 1)
  linarith

/-- Four grid values, the middle two accepted: length two, although the interval has length one. -/
example : ciLength (fun i => (i : ℝ)) 4 1 2 = 2 ∧ (1 : ℝ) ≤ ciLength (fun i => (i : ℝ)) 4 1 2 := by
  constructor
  · rw [C171_length _ 4 1 2 (by norm_num) (by norm_num) (by norm_num)]
    norm_num
  · have := C171_length_ge (fun i => (i : ℝ)) (fun a b h => Nat.cast_le.2 h) 4 1 2 (by norm_num) (by norm_num) (by norm_num)
    norm_num at this
    exact this

/-- The case of C169 with an effect of 101: compatible with the coefficients, but never covered with the default grid. -/
example (dual : ℝ → (Fin 3 → ℝ) → (Fin 3 → ℝ) → Bnd ℝ × Bnd ℝ) (z : Fin 3 → ℝ) (points : ℕ) (c : NuisCI)
    (h : nuisCi solve3 dual a3 ![1, 1, 0] ![1, 0] s3 id CiKind.arp (1 / 20) z none none points = some c) :
    Compatible a3 ![1, 1, 0] ![1, 0] ![1, 101, 2] 101 ∧ ¬ c.Covers 101 := by
  constructor
  · refine ⟨![101, 2], by simp [dotProduct, Fin.sum_univ_two], fun i => ?_⟩
    have e : (![1, 101, 2] : Fin 3 → ℝ) - padPost 1 ![101, 2] = ![1, 0, 0] := by
      funext i
      rw [Pi.sub_apply]
      unfold padPost
      fin_cases i <;> simp [Fin.append, Fin.addCases, vec3_two]
    have e' : ((![1, 101, 2] : Fin (1 + (1 + 1)) → ℝ) - padPost 1 ![101, 2]) = ![1, 0, 0] := e
    rw [e', mulVec, dotProduct]
    show ∑ k : Fin 3, _ ≤ _
    rw [Fin.sum_univ_three]
    fin_cases i <;> norm_num [a3, vec3_two]
  · refine C171_default_violated solve3 dual a3 _ _ s3 id CiKind.arp (1 / 20) z points c h 101 ?_
    have e : (![1, 0] : Fin 2 → ℝ) ⬝ᵥ (s3.submatrix (Fin.natAdd 1) (Fin.natAdd 1) *ᵥ ![1, 0]) = 1 / 6 := by
      rw [dotProduct, Fin.sum_univ_two]
      simp only [mulVec, dotProduct, Fin.sum_univ_two, submatrix_apply]
      simp [s3, diagonal_apply]
    rw [e]
    have : Real.sqrt (1 / 6) ≤ 1 := by rw [Real.sqrt_le_one]; norm_num
    rw [abs_of_pos (by norm_num)]
    linarith

end Verif.Honest
