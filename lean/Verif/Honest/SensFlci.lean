import Verif.Honest.Sens

/-!
# C176: `honest_did` with the smoothness restriction, from the event study to the interval

Composition of `honest_did.py:245-342`, `sensitivity.py:247-263` and `fixed_length_ci.py`.
-/

set_option linter.unusedSectionVars false
set_option linter.unusedSimpArgs false

namespace Verif.Honest

open Finset MeasureTheory ProbabilityTheory

/-! ## Model -/

/-- An event study: event times, the columns of the influence function and the estimates. -/
def colsOf (times : List ℤ) (inf : ℤ → ℕ → ℝ) (att : ℤ → ℝ) : List EsCol := times.map fun t => ⟨t, att t, inf t⟩

/-- What the numerical routines return for the problem at hand: see `FlciProblem`; `x0` is the minimum-variance solution
(`fixed_length_ci.py:393-470`). -/
structure FlciOracle where
  bias : ℝ → Option (ℕ → ℝ)
  quant : ℝ → ℝ
  x0 : ℕ → ℝ
  numPoints : ℕ
  fuel : ℕ

/-- The problem handed to `compute_flci`, `sensitivity.py:250-258`. -/
def FlciOracle.problem (O : FlciOracle) (r : HonestInput) (M : ℝ) : FlciProblem :=
  { p := r.p, q := r.q, sigma := r.sigma, l := r.l, M := M, numPoints := O.numPoints, bias := O.bias, quant := O.quant }

/-- `honest_did(es, event_time, "smoothness", method="FLCI", m_vec=[M])`: the bounds of the row, `honest_did.py:245-342`,
`sensitivity.py:247-263`; `none`: raised (or the search did not end within `fuel` steps). -/
noncomputable def honestFlci (O : FlciOracle) (n : ℕ) (cols : List EsCol) (eventTime : ℤ) (M : ℝ) : Option (ℝ × ℝ) :=
  (honestInput true true n cols eventTime).bind fun r =>
    match (O.problem r M).run (Real.sqrt (varianceExpr r.p r.q r.sigma r.l O.x0)) (Real.sqrt (minBiasVariance r.p r.q r.sigma r.l)) O.fuel with
    | .done v => some (flciOf r.p r.q v.1 r.beta v.2)
    | _ => none

/-! ## Specification -/

/-- The event times with an estimated coefficient: all but the reference period. -/
def estimated (times : List ℤ) : Finset ℤ := times.toFinset.erase (-1)

/-- The estimates are jointly normal: `att t` is centred at the violation `delta t`, plus the effect `tau t` from the treatment on, and the
covariance of any linear combination is the one of the influence functions over `n^2`. -/
def EventStudyLaw {Ω : Type*} [MeasurableSpace Ω] (P : Measure Ω) (n : ℕ) (times : List ℤ) (inf : ℤ → ℕ → ℝ) (att : Ω → ℤ → ℝ) (δ τ : ℤ → ℝ) :
    Prop :=
  ∀ c : ℤ → ℝ, P.map (fun ω => ∑ t ∈ estimated times, c t * att ω t) =
    gaussianReal (∑ t ∈ estimated times, c t * (δ t + if 0 ≤ t then τ t else 0))
      ((∑ u ∈ range n, (∑ t ∈ estimated times, c t * inf t u) ^ 2) / (n * n)).toNNReal

/-- The change of slope of the violation is at most `M` everywhere between the first and the last event time. -/
def SmoothViolation (times : List ℤ) (δ : ℤ → ℝ) (M : ℝ) : Prop :=
  ∀ t : ℤ, (∃ s ∈ times, s ≤ t) → (∃ s ∈ times, t + 2 ≤ s) → |δ t - 2 * δ (t + 1) + δ (t + 2)| ≤ M

/-! ## Lemmas -/

/-- The number of periods, the covariance and the target do not depend on the estimates. -/
theorem honestInput_att (n : ℕ) (times : List ℤ) (inf : ℤ → ℕ → ℝ) (att : ℤ → ℝ) (eventTime : ℤ) :
    honestInput true true n (colsOf times inf att) eventTime =
      (honestInput true true n (colsOf times inf fun _ => 0) eventTime).map fun r =>
        { r with beta := fun j => ((times.eraseP fun t => decide (t = -1))[j]?.map att).getD 0 } := by
  have e1 : ∀ att : ℤ → ℝ, ((colsOf times inf att).filter fun c => decide (c.time < -1)).map EsCol.time = times.filter fun t => decide (t < -1) := by
    intro att
    unfold colsOf
    rw [List.filter_map, List.map_map]
    exact List.map_id' _
  have e2 : ∀ att : ℤ → ℝ, ((colsOf times inf att).filter fun c => decide (-1 < c.time)).map EsCol.time = times.filter fun t => decide (-1 < t) := by
    intro att
    unfold colsOf
    rw [List.filter_map, List.map_map]
    exact List.map_id' _
  have e3 : ∀ att : ℤ → ℝ, (colsOf times inf att).eraseP (fun c => decide (c.time = -1)) = colsOf (times.eraseP fun t => decide (t = -1)) inf att := by
    intro att
    unfold colsOf
    rw [List.eraseP_map]
    rfl
  have e4 : ∀ (L : List ℤ) (att : ℤ → ℝ), (colsOf L inf att).countP (fun c => decide (c.time < -1)) = L.countP fun t => decide (t < -1) := by
    intro L att
    unfold colsOf
    rw [List.countP_map]
    rfl
  have e5 : ∀ (L : List ℤ) (att : ℤ → ℝ), (colsOf L inf att).length = L.length := fun L att => by simp [colsOf]
  have e6 : ∀ (L : List ℤ) (att : ℤ → ℝ) (k : ℕ), ((colsOf L inf att).drop k).map EsCol.time = L.drop k := by
    intro L att k
    unfold colsOf
    rw [← List.map_drop, List.map_map]
    exact List.map_id' _
  have e7 : ∀ (L : List ℤ) (att : ℤ → ℝ) (j : ℕ), ((colsOf L inf att)[j]?.map EsCol.inf) = L[j]?.map inf := by
    intro L att j
    unfold colsOf
    rw [List.getElem?_map, Option.map_map]
    rfl
  have e8 : ∀ (L : List ℤ) (att : ℤ → ℝ) (j : ℕ), ((colsOf L inf att)[j]?.map EsCol.att) = L[j]?.map att := by
    intro L att j
    unfold colsOf
    rw [List.getElem?_map, Option.map_map]
    rfl
  unfold honestInput
  dsimp only
  simp only [e1, e2, e3, e4, e5, e6, e7, e8]
  split_ifs <;> rfl

theorem ascending_colsOf (times : List ℤ) (h : times.Pairwise (· < ·)) (inf : ℤ → ℕ → ℝ) (att : ℤ → ℝ) : Ascending (colsOf times inf att) := by
  unfold Ascending colsOf
  rw [List.pairwise_map]
  exact h

theorem attAt_colsOf (times : List ℤ) (h : times.Pairwise (· < ·)) (inf : ℤ → ℕ → ℝ) (att : ℤ → ℝ) (t : ℤ) (ht : t ∈ times) :
    attAt (colsOf times inf att) t = att t ∧ infAt (colsOf times inf att) t = inf t := by
  have := find_time _ (ascending_colsOf times h inf att) ⟨t, att t, inf t⟩ (List.mem_map.2 ⟨t, ht, rfl⟩)
  unfold attAt infAt
  rw [this]
  exact ⟨rfl, rfl⟩

theorem quad_inf (N n : ℕ) (c : ℕ → ℝ) (f : ℕ → ℕ → ℝ) (sigma : ℕ → ℕ → ℝ)
    (hs : ∀ i < N, ∀ j < N, sigma i j = (∑ u ∈ range n, f i u * f j u) / (n * n)) :
    quadForm N c sigma = (∑ u ∈ range n, (∑ j ∈ range N, c j * f j u) ^ 2) / (n * n) := by
  unfold quadForm
  have e : ∑ u ∈ range n, (∑ j ∈ range N, c j * f j u) ^ 2 = ∑ i ∈ range N, ∑ j ∈ range N, c i * (∑ u ∈ range n, f i u * f j u) * c j := by
    simp only [pow_two, sum_mul_sum, mul_sum, sum_mul]
    rw [sum_comm]
    refine sum_congr rfl fun i _ => ?_
    rw [sum_comm]
    refine sum_congr rfl fun j _ => sum_congr rfl fun u _ => ?_
    ring
  rw [e, sum_div]
  refine sum_congr rfl fun i hi => ?_
  rw [sum_div]
  refine sum_congr rfl fun j hj => ?_
  rw [hs i (mem_range.1 hi) j (mem_range.1 hj)]
  ring

/-- Event time of a coefficient position, and back. -/
def timeOf (p j : ℕ) : ℤ := if j < p then -((p : ℤ) + 1) + j else (j : ℤ) - p

@[inherit_doc timeOf]
def posOf (p : ℕ) (t : ℤ) : ℕ := if t < -1 then (t + p + 1).toNat else (t + p).toNat

theorem sum_times (times : List ℤ) (p q : ℕ)
    (hT : ∀ t, t ∈ estimated times ↔ (-((p : ℤ) + 1) ≤ t ∧ t < -1) ∨ (0 ≤ t ∧ t < q)) (c : ℕ → ℝ) (f : ℤ → ℝ) :
    ∑ j ∈ range (p + q), c j * f (timeOf p j) = ∑ t ∈ estimated times, c (posOf p t) * f t := by
  refine sum_nbij' (timeOf p) (posOf p) ?_ ?_ ?_ ?_ ?_
  · intro j hj
    rw [mem_range] at hj
    rw [hT]
    unfold timeOf
    split_ifs <;> omega
  · intro t ht
    rw [hT] at ht
    rw [mem_range]
    unfold posOf
    split_ifs <;> omega
  · intro j hj
    rw [mem_range] at hj
    unfold timeOf posOf
    split_ifs <;> omega
  · intro t ht
    rw [hT] at ht
    unfold timeOf posOf
    split_ifs <;> omega
  · intro j hj
    rw [mem_range] at hj
    have : posOf p (timeOf p j) = j := by
      unfold timeOf posOf
      split_ifs <;> omega
    rw [this]

/-! ## C176 -/

variable {Ω : Type*} [MeasurableSpace Ω]

/-- C176.  `honest_did` with the smoothness restriction: if the event study has estimates at `-2` and at `0`, is jointly normal around violation
plus effect with the covariance of its influence functions, and the violation (zero at the reference period) changes slope by at most `M`, then
the reported interval contains the effect at the requested event time with probability at least `1 - alpha`, for every violation, every effect
path and every event study (numbers of periods, gaps permitting the analysis to run). -/
theorem C176_coverage (P : Measure Ω) (O : FlciOracle) (n : ℕ) (times : List ℤ) (htimes : times.Pairwise (· < ·)) (h2 : -2 ∈ times) (h0 : 0 ∈ times)
    (inf : ℤ → ℕ → ℝ) (att : Ω → ℤ → ℝ) (δ τ : ℤ → ℝ) (eventTime : ℤ) (M alpha : ℝ) (hM : 0 ≤ M) (r : HonestInput)
    (hr : honestInput true true n (colsOf times inf fun _ => 0) eventTime = some r)
    (hbias : ∀ h x, O.bias h = some x → Solves (biasSet r.p r.q r.sigma r.l h) (biasObjective r.p r.q r.l) x)
    (hquant : ∀ mu, FoldedQuantile (1 - alpha) mu 1 (O.quant mu))
    (hx0 : Solves (weightSet r.p r.q r.l) (varianceExpr r.p r.q r.sigma r.l) O.x0) (hpos : 0 < varianceExpr r.p r.q r.sigma r.l O.x0)
    (hrun : ∀ ω, ∃ ci, honestFlci O n (colsOf times inf (att ω)) eventTime M = some ci)
    (href : δ (-1) = 0) (hδ : SmoothViolation times δ M) (hlaw : EventStudyLaw P n times inf att δ τ) :
    1 - alpha ≤ P.real {ω | ∃ ci, honestFlci O n (colsOf times inf (att ω)) eventTime M = some ci ∧ ci.1 ≤ τ eventTime ∧ τ eventTime ≤ ci.2} := by
  classical
  obtain ⟨a, b, ha, hb, hp1, hq1, ⟨he1, he2⟩, hmem, -, hsig, htarget⟩ :=
    C172_values n _ (ascending_colsOf times htimes inf fun _ => 0) eventTime r hr
  have hmem' : ∀ t : ℤ, t ≠ -1 → (t ∈ times ↔ (a ≤ t ∧ t < a + r.p) ∨ (b ≤ t ∧ t < b + r.q)) := by
    intro t ht
    rw [← hmem t ht]
    constructor
    · intro h
      exact ⟨⟨t, 0, inf t⟩, List.mem_map.2 ⟨t, h, rfl⟩, rfl⟩
    · rintro ⟨c, hc, rfl⟩
      obtain ⟨s, hs, rfl⟩ := List.mem_map.1 hc
      exact hs
  have ea : a = -((r.p : ℤ) + 1) := by
    have h := (hmem' (-2) (by norm_num)).1 h2
    omega
  have eb : b = 0 := by
    have h := (hmem' 0 (by norm_num)).1 h0
    omega
  subst ea eb
  have hT : ∀ t, t ∈ estimated times ↔ (-((r.p : ℤ) + 1) ≤ t ∧ t < -1) ∨ (0 ≤ t ∧ t < r.q) := by
    intro t
    unfold estimated
    rw [mem_erase, List.mem_toFinset]
    constructor
    · rintro ⟨h1, h2⟩
      have := (hmem' t h1).1 h2
      omega
    · intro h
      have h1 : t ≠ -1 := by omega
      exact ⟨h1, (hmem' t h1).2 (by omega)⟩
  have hbeta : ∀ ω, ∃ rω, honestInput true true n (colsOf times inf (att ω)) eventTime = some rω ∧ rω.p = r.p ∧ rω.q = r.q ∧ rω.sigma = r.sigma ∧
      rω.l = r.l ∧ ∀ j < r.p + r.q, rω.beta j = att ω (timeOf r.p j) := by
    intro ω
    have e := honestInput_att n times inf (att ω) eventTime
    rw [hr, Option.map_some] at e
    refine ⟨_, e, rfl, rfl, rfl, rfl, ?_⟩
    obtain ⟨a', b', hA, hB, hP, hQ, -, hm', hb', -, -⟩ := C172_values n _ (ascending_colsOf times htimes inf (att ω)) eventTime _ e
    have hm'' : ∀ t : ℤ, t ≠ -1 → (t ∈ times ↔ (a' ≤ t ∧ t < a' + r.p) ∨ (b' ≤ t ∧ t < b' + r.q)) := by
      intro t ht
      rw [← hm' t ht]
      constructor
      · intro h
        exact ⟨⟨t, att ω t, inf t⟩, List.mem_map.2 ⟨t, h, rfl⟩, rfl⟩
      · rintro ⟨c, hc, rfl⟩
        obtain ⟨s, hs, rfl⟩ := List.mem_map.1 hc
        exact hs
    intro j hj
    have hbj := hb' j hj
    have hab : a' = -((r.p : ℤ) + 1) ∧ b' = 0 := by
      have k1 := (hm'' (-2) (by norm_num)).1 h2
      have k2 := (hm'' 0 (by norm_num)).1 h0
      simp only at hA hB hP hQ
      omega
    rw [hab.1, hab.2] at hbj
    have ht : timeOf r.p j ∈ times := by
      have : timeOf r.p j ∈ estimated times := by
        rw [hT]
        unfold timeOf
        split_ifs <;> omega
      unfold estimated at this
      rw [mem_erase, List.mem_toFinset] at this
      exact this.2
    rw [hbj, ← (attAt_colsOf times htimes inf (att ω) (timeOf r.p j) ht).1]
    congr 1
    unfold timeOf
    simp only
    split_ifs <;> omega
  choose rr hrr hrp hrq hrs hrl hrb using hbeta
  set F := O.problem r M with hF
  -- the estimator and the half-length are the same for all samples
  by_cases hne : Nonempty Ω
  swap
  · have : IsEmpty Ω := not_nonempty_iff.1 hne
    have h1 := hlaw fun _ => 0
    have : P = 0 := Measure.eq_zero_of_isEmpty P
    rw [this, Measure.map_zero] at h1
    exact absurd h1.symm (NeZero.ne _)
  obtain ⟨ω0⟩ := hne
  have hprob : ∀ ω, O.problem (rr ω) M = F := by
    intro ω
    rw [hF]
    unfold FlciOracle.problem
    rw [hrp, hrq, hrs, hrl]
  have hrow : ∀ ω, honestFlci O n (colsOf times inf (att ω)) eventTime M =
      match F.run (Real.sqrt (varianceExpr r.p r.q r.sigma r.l O.x0)) (Real.sqrt (minBiasVariance r.p r.q r.sigma r.l)) O.fuel with
      | .done v => some (flciOf r.p r.q v.1 (rr ω).beta v.2)
      | _ => none := by
    intro ω
    unfold honestFlci
    rw [hrr ω, Option.bind_some, hprob ω, hrp, hrq, hrs, hrl]
  obtain ⟨ci0, hci0⟩ := hrun ω0
  rw [hrow] at hci0
  obtain ⟨⟨vec, half⟩, hv⟩ : ∃ v, F.run (Real.sqrt (varianceExpr r.p r.q r.sigma r.l O.x0)) (Real.sqrt (minBiasVariance r.p r.q r.sigma r.l)) O.fuel =
      .done v := by
    revert hci0
    cases F.run (Real.sqrt (varianceExpr r.p r.q r.sigma r.l O.x0)) (Real.sqrt (minBiasVariance r.p r.q r.sigma r.l)) O.fuel with
    | running => intro h; cases h
    | error => intro h; cases h
    | done v => intro _; exact ⟨v, rfl⟩
  have hrow' : ∀ ω, honestFlci O n (colsOf times inf (att ω)) eventTime M = some (flciOf r.p r.q vec (rr ω).beta half) := by
    intro ω
    rw [hrow, hv]
  -- the coefficients
  have hsym : ∀ i < r.p, ∀ k < r.q, r.sigma i (r.p + k) = r.sigma (r.p + k) i := by
    intro i hi k hk
    rw [hsig i (by omega) (r.p + k) (by omega), hsig (r.p + k) (by omega) i (by omega)]
    congr 1
    exact sum_congr rfl fun u _ => mul_comm _ _
  have hsig' : ∀ i < r.p + r.q, ∀ j < r.p + r.q, r.sigma i j = (∑ u ∈ range n, inf (timeOf r.p i) u * inf (timeOf r.p j) u) / (n * n) := by
    have key : ∀ i < r.p + r.q, infAt (colsOf times inf fun _ => 0) (if i < r.p then -((r.p : ℤ) + 1) + i else 0 + ((i : ℤ) - r.p)) = inf (timeOf r.p i) := by
      intro i hi
      have ht : timeOf r.p i ∈ times := by
        have : timeOf r.p i ∈ estimated times := by
          rw [hT]
          unfold timeOf
          split_ifs <;> omega
        unfold estimated at this
        rw [mem_erase, List.mem_toFinset] at this
        exact this.2
      rw [← (attAt_colsOf times htimes inf (fun _ => 0) (timeOf r.p i) ht).2]
      congr 1
      unfold timeOf
      split_ifs <;> omega
    intro i hi j hj
    rw [hsig i hi j hj, key i hi, key j hj]
  set δ' : ℕ → ℝ := fun j => δ (timeOf r.p j) with hδ'
  set τ' : ℕ → ℝ := fun k => τ k with hτ'
  have hmean : ∀ j < r.p + r.q, betaOf r.p δ' τ' j = δ (timeOf r.p j) + if 0 ≤ timeOf r.p j then τ (timeOf r.p j) else 0 := by
    intro j hj
    unfold betaOf
    by_cases hjp : j < r.p
    · rw [if_pos hjp, if_neg, add_zero]
      unfold timeOf
      rw [if_pos hjp]
      omega
    · have e : timeOf r.p j = ((j - r.p : ℕ) : ℤ) := by
        unfold timeOf
        rw [if_neg hjp]
        omega
      rw [if_neg hjp, if_pos (by rw [e]; omega), hδ', hτ']
      beta_reduce
      rw [e]
  have hG : GaussianCoefs P (r.p + r.q) (fun ω => (rr ω).beta) (betaOf r.p δ' τ') r.sigma := by
    intro c
    have e1 : (fun ω => ∑ j ∈ range (r.p + r.q), c j * (rr ω).beta j) = fun ω => ∑ t ∈ estimated times, c (posOf r.p t) * att ω t := by
      funext ω
      rw [← sum_times times r.p r.q hT c (att ω)]
      exact sum_congr rfl fun j hj => by rw [hrb ω j (mem_range.1 hj)]
    have e2 : ∑ j ∈ range (r.p + r.q), c j * betaOf r.p δ' τ' j =
        ∑ t ∈ estimated times, c (posOf r.p t) * (δ t + if 0 ≤ t then τ t else 0) := by
      rw [← sum_times times r.p r.q hT c fun t => δ t + if 0 ≤ t then τ t else 0]
      exact sum_congr rfl fun j hj => by rw [hmean j (mem_range.1 hj)]
    have e3 : quadForm (r.p + r.q) c r.sigma = (∑ u ∈ range n, (∑ t ∈ estimated times, c (posOf r.p t) * inf t u) ^ 2) / (n * n) := by
      rw [quad_inf (r.p + r.q) n c (fun j => inf (timeOf r.p j)) r.sigma hsig']
      congr 1
      refine sum_congr rfl fun u _ => ?_
      rw [sum_times times r.p r.q hT c fun t => inf t u]
    rw [e1, e2, e3]
    exact hlaw fun t => c (posOf r.p t)
  have hfull : ∀ j, j ≤ r.p + r.q → full r.p δ' j = δ (-((r.p : ℤ) + 1) + j) := by
    intro j hj
    unfold full
    rcases Nat.lt_trichotomy j r.p with h | h | h
    · rw [if_pos h, hδ']
      beta_reduce
      unfold timeOf
      rw [if_pos h]
    · rw [if_neg (by omega), if_pos h, ← href]
      congr 1
      omega
    · rw [if_neg (by omega), if_neg (by omega), hδ']
      beta_reduce
      unfold timeOf
      rw [if_neg (by omega)]
      congr 1
      omega
  have hin : δ' ∈ DeltaSD r.p r.q M := by
    intro k hk
    unfold D2
    rw [hfull k (by omega), hfull (k + 1) (by omega), hfull (k + 2) (by omega)]
    have hs := hδ (-((r.p : ℤ) + 1) + k) ⟨-((r.p : ℤ) + 1), (hmem' _ (by omega)).2 (by omega), by omega⟩
      ⟨(r.q : ℤ) - 1, (hmem' _ (by omega)).2 (by omega), by omega⟩
    push_cast
    rw [show -((r.p : ℤ) + 1) + ((k : ℤ) + 1) = -((r.p : ℤ) + 1) + k + 1 by ring, show -((r.p : ℤ) + 1) + ((k : ℤ) + 2) = -((r.p : ℤ) + 1) + k + 2 by ring]
    exact hs
  have htheta : thetaOf r.q r.l τ' = τ eventTime := by
    unfold thetaOf
    rw [htarget τ', hτ']
    beta_reduce
    congr 1
    omega
  have := C153_run P F hp1 hM alpha hsym hbias hquant O.x0 hx0 hpos O.fuel vec half hv δ' τ' hin (fun ω => (rr ω).beta) hG
  refine this.trans (le_of_eq ?_)
  congr 1
  ext ω
  have : thetaOf F.q F.l τ' = τ eventTime := htheta
  rw [Set.mem_ofPred_eq, Set.mem_ofPred_eq, this, hrow' ω]
  constructor
  · intro h
    exact ⟨_, rfl, h.1, h.2⟩
  · rintro ⟨ci, hci, h1, h2⟩
    cases hci
    exact ⟨h1, h2⟩

/-! ### Non-vacuity: estimates at `-2`, `-1`, `0` from one unit with influence values `1`, `0`, `2`, a violation of slope `3` and effect `5` -/

/-- Influence values of the example. -/
def infEx (t : ℤ) (_ : ℕ) : ℝ := if t = -2 then 1 else if t = 0 then 2 else 0

/-- The exact oracles for the example (as in `exFlci`). -/
noncomputable def oracleEx : FlciOracle where
  bias := fun h => open Classical in if 9 ≤ h ^ 2 then some (stackOf 1 (minBiasWeights 1 1 fun _ => 1)) else none
  quant := exFlci.quant
  x0 := stackOf 1 (minBiasWeights 1 1 fun _ => 1)
  numPoints := 100
  fuel := 1

example : ∃ (P : Measure ℝ) (att : ℝ → ℤ → ℝ) (δ τ : ℤ → ℝ) (r : HonestInput),
    honestInput true true 1 (colsOf [-2, -1, 0] infEx fun _ => 0) 0 = some r ∧
    (∀ h x, oracleEx.bias h = some x → Solves (biasSet r.p r.q r.sigma r.l h) (biasObjective r.p r.q r.l) x) ∧
    (∀ mu, FoldedQuantile (1 - 1 / 20) mu 1 (oracleEx.quant mu)) ∧
    Solves (weightSet r.p r.q r.l) (varianceExpr r.p r.q r.sigma r.l) oracleEx.x0 ∧ 0 < varianceExpr r.p r.q r.sigma r.l oracleEx.x0 ∧
    (∀ ω, ∃ ci, honestFlci oracleEx 1 (colsOf [-2, -1, 0] infEx (att ω)) 0 (1 / 10) = some ci) ∧ δ (-1) = 0 ∧ δ 0 = 3 ∧ τ 0 = 5 ∧
    SmoothViolation [-2, -1, 0] δ (1 / 10) ∧ EventStudyLaw P 1 [-2, -1, 0] infEx att δ τ := by
  set att : ℝ → ℤ → ℝ := fun z t => if t = -2 then -3 + z else if t = 0 then 8 + 2 * z else 0 with hatt
  obtain ⟨r, hr, hp, hq, hsg, hl⟩ : ∃ r, honestInput true true 1 (colsOf [-2, -1, 0] infEx fun _ => 0) 0 = some r ∧ r.p = 1 ∧ r.q = 1 ∧
      (∀ i < 2, ∀ j < 2, r.sigma i j = exFlci.sigma i j) ∧ r.l 0 = 1 := by
    refine ⟨_, rfl, rfl, rfl, ?_, rfl⟩
    intro i hi j hj
    show (∑ u ∈ range 1, ((colsOf [-2, 0] infEx fun _ => 0)[i]?.map EsCol.inf).getD (fun _ => 0) u *
      ((colsOf [-2, 0] infEx fun _ => 0)[j]?.map EsCol.inf).getD (fun _ => 0) u) / (((1 : ℕ) : ℝ) * ((1 : ℕ) : ℝ)) = exFlci.sigma i j
    interval_cases i <;> interval_cases j <;> simp [colsOf, infEx, exFlci]
  -- all quantities of the problem only use the entries below 2 and the weight 0
  have vEq : ∀ x, varianceExpr 1 1 r.sigma r.l x = varianceExpr 1 1 exFlci.sigma exFlci.l x := by
    intro x
    simp only [varianceExpr, sigmaPost, aQuad, aLin, sum_range_succ, sum_range_zero, hl, exFlci]
    have h00 := hsg 0 (by norm_num) 0 (by norm_num)
    have h01 := hsg 0 (by norm_num) 1 (by norm_num)
    have h10 := hsg 1 (by norm_num) 0 (by norm_num)
    have h11 := hsg 1 (by norm_num) 1 (by norm_num)
    simp only [exFlci] at h00 h01 h10 h11
    simp [h00, h01, h10, h11]
  have wEq : weightSet 1 1 r.l = weightSet 1 1 exFlci.l := by
    unfold weightSet targetSum
    simp [hl, exFlci]
  have oEq : ∀ x, biasObjective 1 1 r.l x = biasObjective 1 1 exFlci.l x := by
    intro x
    unfold biasObjective biasConstant
    simp [hl, exFlci, targetSum]
  have mEq : minBiasVariance 1 1 r.sigma r.l = 9 := by
    have h00 := hsg 0 (by norm_num) 0 (by norm_num)
    have h01 := hsg 0 (by norm_num) 1 (by norm_num)
    have h10 := hsg 1 (by norm_num) 0 (by norm_num)
    have h11 := hsg 1 (by norm_num) 1 (by norm_num)
    simp only [exFlci] at h00 h01 h10 h11
    simp [minBiasVariance, affineVariance, sigmaPost, minBiasWeights, weightsToL, targetSum, hl, h00, h01, h10, h11]
    norm_num
  have hmem : stackOf 1 (minBiasWeights 1 1 fun _ => (1 : ℝ)) ∈ weightSet 1 1 exFlci.l :=
    stackOf_mem 1 1 _ _ (minBias_sum 0 1 _)
  have x9 : varianceExpr 1 1 exFlci.sigma exFlci.l (stackOf 1 (minBiasWeights 1 1 fun _ => (1 : ℝ))) = 9 := by
    rw [C150_one_pre 1 exFlci.sigma exFlci.l _ hmem]
    exact exFlci_var
  have hb : oracleEx.bias 3 = some (stackOf 1 (minBiasWeights 1 1 fun _ => 1)) := by
    simp only [oracleEx]
    rw [if_pos (by norm_num)]
  refine ⟨gaussianReal 0 1, att, fun t => 3 * ((t : ℝ) + 1), fun _ => 5, r, hr, ?_, ?_, ?_, ?_, ?_, ?_, ?_, rfl, ?_, ?_⟩
  · rw [hp, hq]
    intro h x hx
    simp only [oracleEx] at hx
    split_ifs at hx with hh
    simp only [Option.some.injEq] at hx
    subst hx
    have hsol := C150_min_bias 1 1 le_rfl exFlci.sigma exFlci.l h (by rw [show exFlci.l = fun _ => 1 from rfl, exFlci_var]; exact hh)
    refine ⟨⟨by rw [wEq]; exact hsol.1.1, ?_⟩, ?_⟩
    · rw [vEq]; exact hsol.1.2
    · rintro y ⟨hy1, hy2⟩
      rw [oEq, oEq]
      rw [wEq] at hy1
      rw [vEq] at hy2
      exact hsol.2 y ⟨hy1, hy2⟩
  · intro mu
    exact (C152_exists (1 - 1 / 20) mu 1 (by norm_num) (by norm_num) one_pos).choose_spec.1
  · rw [hp, hq]
    refine ⟨by rw [wEq]; exact hmem, ?_⟩
    intro y hy
    rw [wEq] at hy
    rw [vEq, vEq]
    show varianceExpr 1 1 exFlci.sigma exFlci.l (stackOf 1 (minBiasWeights 1 1 fun _ => 1)) ≤ _
    rw [C150_one_pre 1 exFlci.sigma exFlci.l y hy, C150_one_pre 1 exFlci.sigma exFlci.l _ hmem]
  · rw [hp, hq, vEq]
    show 0 < varianceExpr 1 1 exFlci.sigma exFlci.l (stackOf 1 (minBiasWeights 1 1 fun _ => 1))
    rw [x9]
    norm_num
  · intro z
    have e := honestInput_att 1 [-2, -1, 0] infEx (att z) 0
    rw [hr, Option.map_some] at e
    unfold honestFlci
    rw [e, Option.bind_some]
    have s9 : Real.sqrt 9 = 3 := by
      rw [show (9 : ℝ) = 3 ^ 2 by norm_num, Real.sqrt_sq (by norm_num)]
    have hrun : ((oracleEx.problem { r with beta := fun j => (([-2, -1, 0].eraseP fun t : ℤ => decide (t = -1))[j]?.map (att z)).getD 0 } (1 / 10)).run
        (Real.sqrt (varianceExpr r.p r.q r.sigma r.l oracleEx.x0)) (Real.sqrt (minBiasVariance r.p r.q r.sigma r.l)) oracleEx.fuel) ≠ .running ∧
        ((oracleEx.problem { r with beta := fun j => (([-2, -1, 0].eraseP fun t : ℤ => decide (t = -1))[j]?.map (att z)).getD 0 } (1 / 10)).run
        (Real.sqrt (varianceExpr r.p r.q r.sigma r.l oracleEx.x0)) (Real.sqrt (minBiasVariance r.p r.q r.sigma r.l)) oracleEx.fuel) ≠ .error := by
      rw [hp, hq, vEq, mEq, show oracleEx.x0 = stackOf 1 (minBiasWeights 1 1 fun _ => 1) from rfl, x9, s9]
      unfold FlciProblem.run
      rw [show oracleEx.fuel = 0 + 1 from rfl, C154_degenerate _ 3 _ (by unfold FlciProblem.halfAt; rw [show (FlciOracle.problem oracleEx _ _).bias 3 = oracleEx.bias 3 from rfl, hb]; rfl) _ 0]
      simp only [show ∀ a b, (FlciOracle.problem oracleEx a b).bias 3 = oracleEx.bias 3 from fun _ _ => rfl, hb]
      exact ⟨fun h => (by cases h), fun h => (by cases h)⟩
    revert hrun
    dsimp only
    cases (oracleEx.problem { r with beta := fun j => (([-2, -1, 0].eraseP fun t : ℤ => decide (t = -1))[j]?.map (att z)).getD 0 } (1 / 10)).run
        (Real.sqrt (varianceExpr r.p r.q r.sigma r.l oracleEx.x0)) (Real.sqrt (minBiasVariance r.p r.q r.sigma r.l)) oracleEx.fuel with
    | running => rintro ⟨h, -⟩; exact absurd rfl h
    | error => rintro ⟨-, h⟩; exact absurd rfl h
    | done v => intro _; exact ⟨_, rfl⟩
  · norm_num
  · norm_num
  · intro t _ _
    push_cast
    rw [show (3 : ℝ) * ((t : ℝ) + 1) - 2 * (3 * ((t : ℝ) + 1 + 1)) + 3 * ((t : ℝ) + 2 + 1) = 0 by ring, abs_zero]
    norm_num
  · intro c
    have e0 : estimated [-2, -1, 0] = {-2, 0} := by decide
    rw [e0]
    have hne : (-2 : ℤ) ∉ ({0} : Finset ℤ) := by decide
    simp only [sum_insert hne, sum_singleton, range_one, hatt, infEx]
    norm_num
    have e1 : (fun z : ℝ => c (-2) * (-3 + z) + c 0 * (8 + 2 * z)) = (fun x => x + (c (-2) * -3 + c 0 * 8)) ∘ fun z => (c (-2) + c 0 * 2) * z := by
      funext z
      simp only [Function.comp]
      ring
    rw [e1, ← Measure.map_map (by fun_prop) (by fun_prop), gaussianReal_map_const_mul, gaussianReal_map_add_const]
    congr 1
    · ring
    · ext
      simp [Real.coe_toNNReal _ (sq_nonneg (c (-2) + c 0 * 2))]

end Verif.Honest
