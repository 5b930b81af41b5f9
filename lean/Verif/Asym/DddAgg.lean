import Verif.Asym.DddMp
import Verif.Asym.AggGen
import Verif.Triple.AggDeriv

set_option linter.unusedSectionVars false
set_option linter.unusedSimpArgs false

/-!
# C284, C285: aggregation of triple-difference cells (`agg_ddd`) in large samples

The estimated cohort shares enter the estimates of every aggregation, but the influence functions of the overall, event-time and calendar effects leave them out.
-/

namespace Verif.Asym

open MeasureTheory ProbabilityTheory Filter Topology Verif.Honest Verif.DR Verif.Triple

variable {Ω 𝓧 : Type*} [MeasurableSpace Ω] [MeasurableSpace 𝓧]

/-! ## Specification -/

/-- A reported estimate with influence function `psi` and standard error `plainSe psi` that are in large samples about `θ` and the standard deviation of `ψ'`, while the
estimate varies with the standard deviation of `ψ`: with probability one the estimate is reported from some sample size on, tends to `θ`, `√n` times the standard error tends
to the standard deviation of `ψ'`, and the probability that the interval contains `θ` tends to the probability that a standard normal variable lies within the critical value
times the ratio of the standard deviations. -/
structure InferenceWith (P : Measure Ω) (X : ℕ → Ω → 𝓧) (rep : (n : ℕ) → Ω → Option (ℝ × (Fin n → ℝ))) (θ : ℝ) (ψ ψ' : 𝓧 → ℝ) : Prop where
  limit : ∀ᵐ ω ∂P, ∃ att se : ℕ → ℝ, (∀ᶠ n in atTop, ∃ psi, rep n ω = some (att n, psi) ∧ plainSe psi = se n) ∧ Tendsto att atTop (𝓝 θ) ∧
    Tendsto (fun n : ℕ => Real.sqrt n * se n) atTop (𝓝 (Real.sqrt (pop P X fun z => ψ' z ^ 2)))
  coverage : ∀ alpha, 0 < alpha → alpha < 1 → 0 < pop P X (fun z => ψ z ^ 2) → 0 < pop P X (fun z => ψ' z ^ 2) →
    Tendsto (fun n => P.real {ω | ∃ att psi, rep n ω = some (att, psi) ∧ (Report.rowInterval (Report.zcrit alpha) att (plainSe psi)).1 ≤ θ ∧
      θ ≤ (Report.rowInterval (Report.zcrit alpha) att (plainSe psi)).2}) atTop
      (𝓝 (2 * Phi (Report.zcrit alpha * (Real.sqrt (pop P X fun z => ψ' z ^ 2) / Real.sqrt (pop P X fun z => ψ z ^ 2))) - 1))

/-- Influence on a share-weighted mean through the items alone. -/
noncomputable def itemInfluence {α : Type*} (P : Measure Ω) (X : ℕ → Ω → 𝓧) (G : 𝓧 → WithTop ℤ) (w : 𝓧 → ℝ) (γ : α → ℤ) (ψ : α → 𝓧 → ℝ) (L : List α) (z : 𝓧) : ℝ :=
  (L.map fun c => popShare P X G w (γ c) * ψ c z).sum / (L.map fun c => popShare P X G w (γ c)).sum

/-- Influence through the cohort shares alone. -/
noncomputable def shareOnly {α : Type*} (P : Measure Ω) (X : ℕ → Ω → 𝓧) (G : 𝓧 → WithTop ℤ) (w : 𝓧 → ℝ) (γ : α → ℤ) (θ : α → ℝ) (L : List α) (z : 𝓧) : ℝ :=
  (L.map fun c => w z * isG G (γ c) z * (θ c - shareMean P X G w γ θ L)).sum / (L.map fun c => popShare P X G w (γ c)).sum

/-! ## Estimates and standard errors from different expansions -/

section
variable {P : Measure Ω} [IsProbabilityMeasure P] {X : ℕ → Ω → 𝓧} (hX : Sampling P X)
include hX

theorem Regular.mixed {est est' : ℕ → Ω → ℝ} {inf inf' : (n : ℕ) → Ω → Fin n → ℝ} {θ θ' : ℝ} {G G' : ℕ → Set Ω} {ψ ψ' : 𝓧 → ℝ} (h : Regular P X est inf θ G ψ)
    (h' : Regular P X est' inf' θ' G' ψ') (rep : (n : ℕ) → Ω → Option (ℝ × (Fin n → ℝ))) (hr : ∀ n, ∀ ω ∈ G n, ω ∈ G' n → rep n ω = some (est n ω, inf' n ω)) :
    InferenceWith P X rep θ ψ ψ' := by
  obtain ⟨⟨m, l, u, a, a', f, c, c', hp, hψ⟩, h0⟩ := h
  obtain ⟨⟨m', l', u', b, b', f', d, d', hp', hψ'⟩, h0'⟩ := h'
  have hse := hp'.plain_se hX h0'
  simp only [hψ'] at hse
  refine ⟨?_, fun alpha ha0 ha1 hv hv' => ?_⟩
  · filter_upwards [hp.consistent hX, hse, hp.Gev, hp'.Gev] with ω h1 h2 h3 h4
    refine ⟨fun n => est n ω, fun n => plainSe (inf' n ω), ?_, h1, h2⟩
    filter_upwards [h3, h4] with n h3 h4
    exact ⟨inf' n ω, hr n ω h3 h4, rfl⟩
  · obtain ⟨σ, hσ⟩ : ∃ σ, σ = Real.sqrt (pop P X fun z => ψ z ^ 2) := ⟨_, rfl⟩
    obtain ⟨τ, hτ⟩ : ∃ τ, τ = Real.sqrt (pop P X fun z => ψ' z ^ 2) := ⟨_, rfl⟩
    have hσ0 : 0 < σ := hσ ▸ Real.sqrt_pos.2 hv
    have hτ0 : 0 < τ := hτ ▸ Real.sqrt_pos.2 hv'
    have hz := (ppf_half alpha ha0 ha1).le
    obtain ⟨est₀, hest⟩ : ∃ e : ℕ → Ω → ℝ, e = fun n ω => θ + ∑ j, a n ω j * avg X (u j) n ω := ⟨_, rfl⟩
    obtain ⟨inf₀, hinf⟩ : ∃ e : (n : ℕ) → Ω → Fin n → ℝ, e = fun n ω (i : Fin n) => ∑ k, d n ω k * f' k (X i.1 ω) := ⟨_, rfl⟩
    obtain ⟨se₀, hse0⟩ : ∃ s : ℕ → Ω → ℝ, s = fun n ω => plainSe (inf₀ n ω) * (σ / τ) := ⟨_, rfl⟩
    have hT := combination hX u hp.u2 hp.u0 a a' hp.am hp.alim
    simp only [hψ] at hT
    have hinfm : ∀ n i, AEMeasurable (fun ω => inf₀ n ω i) P := by
      intro n i
      rw [hinf]
      exact Finset.aemeasurable_fun_sum _ fun k _ => (hp'.cm n k).mul ((hp'.f2 k).1.comp_aemeasurable (hX.aemeas i))
    have hsem : ∀ n, AEMeasurable (se₀ n) P := by
      intro n
      rw [hse0]
      unfold plainSe DR.mean
      have h1 : AEMeasurable (fun ω => ∑ i, inf₀ n ω i ^ 2) P := Finset.aemeasurable_fun_sum _ fun i _ => (hinfm n i).pow_const 2
      exact (((h1.div_const _).div_const _).sqrt).mul_const _
    have hinfe : ∀ n, ∀ ω ∈ G' n, inf₀ n ω = inf' n ω := fun n ω hω => by
      rw [hinf]
      exact funext fun i => (hp'.inf_eq n ω hω i).symm
    have hsl : ∀ᵐ ω ∂P, Tendsto (fun n : ℕ => Real.sqrt n * se₀ n ω) atTop (𝓝 σ) := by
      filter_upwards [hse, hp'.Gev] with ω h1 h2
      rw [← hτ] at h1
      have h3 := h1.mul_const (σ / τ)
      rw [mul_div_cancel₀ _ hτ0.ne'] at h3
      refine h3.congr' ?_
      filter_upwards [h2] with n hn
      rw [hse0]
      dsimp only
      rw [hinfe n ω hn, mul_assoc]
    have hr0 : 0 ≤ Report.zcrit alpha * (τ / σ) := mul_nonneg hz (by positivity)
    have hcov := coverage_limit est₀ se₀ θ σ (Report.zcrit alpha * (τ / σ)) hσ0 hr0 (by
      rw [hσ, Real.sq_sqrt hv.le]
      refine hT.congr (fun n => ae_of_all _ fun ω => ?_) (ae_of_all _ fun _ => rfl)
      rw [hest]
      simp) hsem hsl
    rw [← hσ, ← hτ, show 2 * Phi (Report.zcrit alpha * (τ / σ)) - 1 = Phi (Report.zcrit alpha * (τ / σ)) - Phi (-(Report.zcrit alpha * (τ / σ))) by rw [phi_neg]; ring]
    refine prob_agree _ _ (fun n => G n ∩ G' n) (fun n => (hp.Gm n).inter (hp'.Gm n)) (by
      filter_upwards [hp.Gev, hp'.Gev] with ω h1 h2
      filter_upwards [h1, h2] with n a1 a2 using ⟨a1, a2⟩) (fun n ω hω => ?_) _ hcov
    have e1 : est₀ n ω = est n ω := by
      rw [hest]
      dsimp only
      rw [← hp.est_eq n ω hω.1]
      ring
    have e2 : Report.zcrit alpha * (τ / σ) * se₀ n ω = Report.zcrit alpha * plainSe (inf' n ω) := by
      rw [hse0]
      dsimp only
      rw [hinfe n ω hω.2]
      field_simp
    rw [Set.mem_ofPred_eq, Set.mem_ofPred_eq, hr n ω hω.1 hω.2, e1, e2]
    simp only [Option.some.injEq, Prod.mk.injEq]
    constructor
    · rintro ⟨_, _, ⟨rfl, rfl⟩, h⟩
      exact h
    · intro h
      exact ⟨_, _, ⟨rfl, rfl⟩, h⟩

/-- The standard errors without the influence of the shares. -/
theorem Regular.bare {K : Type*} [Fintype K] {est : K → ℕ → Ω → ℝ} {inf : K → (n : ℕ) → Ω → Fin n → ℝ} {θ : K → ℝ} {G : K → ℕ → Set Ω} {ψ : K → 𝓧 → ℝ}
    (h : ∀ k, Regular P X (est k) (inf k) (θ k) (G k) (ψ k)) (e : K → 𝓧 → ℝ) (he : ∀ k, SqInt P X (e k)) (hS : ∑ k, pop P X (e k) ≠ 0) :
    Regular P X (fun n ω => ∑ k, ewt X e n ω k * (est k n ω - θ k)) (fun n ω i => ∑ k, ewt X e n ω k * inf k n ω i) 0
      (fun n => (⋂ k, G k n) ∩ {ω | ∑ j, avg X (e j) n ω ≠ 0}) fun z => ∑ k, pwt P X e k * ψ k z := by
  choose m l u a a' f c c' hp hψ using fun k => (h k).1
  have hm : ∀ n k, AEMeasurable (fun ω => avg X (e k) n ω) P := fun n k => avg_aemeas hX (he k).1 n
  have hmS : ∀ n, AEMeasurable (fun ω => ∑ j, avg X (e j) n ω) P := fun n => Finset.aemeasurable_fun_sum _ fun k _ => hm n k
  have hmw : ∀ n k, AEMeasurable (fun ω => ewt X e n ω k) P := fun n k => (hm n k).div (hmS n)
  have hl : ∀ᵐ ω ∂P, ∀ k, Tendsto (fun n => avg X (e k) n ω) atTop (𝓝 (pop P X (e k))) := ae_all_iff.2 fun k => lln2 hX (he k)
  have hpl : Plugin P X (fun n ω => ∑ k, ewt X e n ω k * (est k n ω - θ k)) (fun n ω i => ∑ k, ewt X e n ω k * inf k n ω i) 0
      (fun n => (⋂ k, G k n) ∩ {ω | ∑ j, avg X (e j) n ω ≠ 0}) (fun p : (k : K) × Fin (m k) => u p.1 p.2) (fun n ω p => ewt X e n ω p.1 * a p.1 n ω p.2)
      (fun p => pwt P X e p.1 * a' p.1 p.2) (fun p : (k : K) × Fin (l k) => f p.1 p.2) (fun n ω p => ewt X e n ω p.1 * c p.1 n ω p.2) fun p => pwt P X e p.1 * c' p.1 p.2 := by
    refine ⟨fun p => (hp p.1).u2 p.2, fun p => (hp p.1).u0 p.2, fun n p => (hmw n p.1).mul ((hp p.1).am n p.2), ?_, fun p => (hp p.1).f2 p.2,
      fun n p => (hmw n p.1).mul ((hp p.1).cm n p.2), ?_, fun z => ?_, fun n => ?_, ?_, ?_, ?_⟩
    · filter_upwards [hl, ae_all_iff.2 fun k => (hp k).alim] with ω h1 h2 p
      exact ((h1 p.1).div (tendsto_finsetSum _ fun j _ => h1 j) hS).mul (h2 p.1 p.2)
    · filter_upwards [hl, ae_all_iff.2 fun k => (hp k).clim] with ω h1 h2 p
      exact ((h1 p.1).div (tendsto_finsetSum _ fun j _ => h1 j) hS).mul (h2 p.1 p.2)
    · rw [Fintype.sum_sigma, Fintype.sum_sigma]
      refine Finset.sum_congr rfl fun k _ => ?_
      simp only [mul_assoc]
      rw [← Finset.mul_sum, ← Finset.mul_sum, (hp k).same]
    · exact (NullMeasurableSet.iInter fun k => (hp k).Gm n).inter ((hmS n).nullMeasurable (measurableSet_singleton 0).compl)
    · filter_upwards [hl, ae_all_iff.2 fun k => (hp k).Gev] with ω h1 h
      have hs : Tendsto (fun n => ∑ j, avg X (e j) n ω) atTop (𝓝 (∑ j, pop P X (e j))) := tendsto_finsetSum _ fun j _ => h1 j
      filter_upwards [eventually_all.2 h, hs.eventually_ne hS] with n hn hne
      exact ⟨Set.mem_iInter.2 hn, hne⟩
    · rintro n ω ⟨hω, hne⟩
      rw [Fintype.sum_sigma, sub_zero]
      refine Finset.sum_congr rfl fun k _ => ?_
      simp only [mul_assoc]
      rw [← Finset.mul_sum, ← (hp k).est_eq n ω (Set.mem_iInter.1 hω k)]
    · rintro n ω ⟨hω, hne⟩ i
      rw [Fintype.sum_sigma]
      refine Finset.sum_congr rfl fun k _ => ?_
      rw [(hp k).inf_eq n ω (Set.mem_iInter.1 hω k), Finset.mul_sum]
      simp only [mul_assoc]
  refine hpl.regular hX (fun z => ?_) ?_
  · rw [Fintype.sum_sigma]
    refine Finset.sum_congr rfl fun k _ => ?_
    simp only [mul_assoc]
    rw [← Finset.mul_sum, hψ]
  · rintro n ω ⟨hω, hne⟩
    rw [mean_sum]
    exact Finset.sum_eq_zero fun k _ => by rw [(h k).2 n ω (Set.mem_iInter.1 hω k), mul_zero]

omit hX in
/-- A smaller set of good samples. -/
theorem Regular.inter {est : ℕ → Ω → ℝ} {inf : (n : ℕ) → Ω → Fin n → ℝ} {θ : ℝ} {G : ℕ → Set Ω} {ψ : 𝓧 → ℝ} (h : Regular P X est inf θ G ψ) (H : ℕ → Set Ω)
    (hm : ∀ n, NullMeasurableSet (H n) P) (he : ∀ᵐ ω ∂P, ∀ᶠ n in atTop, ω ∈ H n) : Regular P X est inf θ (fun n => G n ∩ H n) ψ := by
  obtain ⟨⟨m, l, u, a, a', f, c, c', hp, hψ⟩, h0⟩ := h
  refine ⟨⟨m, l, u, a, a', f, c, c', { hp with
    Gm := fun n => (hp.Gm n).inter (hm n)
    Gev := ?_
    est_eq := fun n ω hω => hp.est_eq n ω hω.1
    inf_eq := fun n ω hω => hp.inf_eq n ω hω.1 }, hψ⟩, fun n ω hω => h0 n ω hω.1⟩
  filter_upwards [hp.Gev, he] with ω h1 h2
  filter_upwards [h1, h2] with n a1 a2 using ⟨a1, a2⟩

end

/-! ## Lists of cells -/

section
variable {α : Type*} {L : List α} {γ : α → ℤ} {G : 𝓧 → WithTop ℤ} {w : 𝓧 → ℝ} {X : ℕ → Ω → 𝓧} {P : Measure Ω}

/-- Reported influence values without those of the shares. -/
noncomputable def bareInf (L : List α) (γ : α → ℤ) (G : 𝓧 → WithTop ℤ) (w : 𝓧 → ℝ) (X : ℕ → Ω → 𝓧) (inf : α → (n : ℕ) → Ω → Fin n → ℝ) (n : ℕ) (ω : Ω) (i : Fin n) : ℝ :=
  ∑ k, ewt X (eOf L γ G w) n ω k * inf L[k.1] n ω i

theorem share_split {θ : α → ℝ} {ψ : α → 𝓧 → ℝ} (z : 𝓧) : shareInfluence P X G w γ θ ψ L z = itemInfluence P X G w γ ψ L z + shareOnly P X G w γ θ L z := by
  unfold shareInfluence itemInfluence shareOnly
  rw [add_div]

theorem bare_regular [IsProbabilityMeasure P] (hX : Sampling P X) {est : α → ℕ → Ω → ℝ} {inf : α → (n : ℕ) → Ω → Fin n → ℝ} {θ : α → ℝ} {H : α → ℕ → Set Ω} {ψ : α → 𝓧 → ℝ}
    (h : ∀ c ∈ L, Regular P X (est c) (inf c) (θ c) (H c) (ψ c)) (h2 : ∀ c ∈ L, SqInt P X fun z => w z * isG G (γ c) z) (h3 : ∀ c ∈ L, 0 < popShare P X G w (γ c))
    (hL : L ≠ []) : ∃ est', Regular P X est' (bareInf L γ G w X inf) 0 (wGood L γ G w X H) (itemInfluence P X G w γ ψ L) := by
  have hS : 0 < (L.map fun c => popShare P X G w (γ c)).sum := by
    refine List.sum_pos _ (fun v hv => ?_) (by simpa using hL)
    obtain ⟨c, hc, rfl⟩ := List.mem_map.1 hv
    exact h3 c hc
  have hpop : ∀ k, pop P X (eOf L γ G w k) = popShare P X G w (γ L[k.1]) := fun k => rfl
  have htot : ∑ k, pop P X (eOf L γ G w k) = (L.map fun c => popShare P X G w (γ c)).sum := by
    simp only [hpop]
    exact Fin.sum_univ_fun_getElem L fun c => popShare P X G w (γ c)
  have := Regular.bare hX (K := Fin L.length) (fun k => h _ (List.getElem_mem k.2)) (eOf L γ G w) (fun k => h2 _ (List.getElem_mem k.2)) (by rw [htot]; exact hS.ne')
  have hψ : itemInfluence P X G w γ ψ L = fun z => ∑ k : Fin L.length, pwt P X (eOf L γ G w) k * ψ L[k.1] z := by
    funext z
    unfold itemInfluence
    rw [← Fin.sum_univ_fun_getElem L fun c => popShare P X G w (γ c) * ψ c z, Finset.sum_div]
    refine Finset.sum_congr rfl fun k _ => ?_
    rw [pwt, htot, hpop]
    ring
  exact ⟨_, hψ ▸ this⟩

variable {n : ℕ} {ω : Ω} {cs : List (Agg.Cell (Fin n) ℝ)} {p : Agg.Cell (Fin n) ℝ → Bool} {τ : α → ℤ} {est : α → ℕ → Ω → ℝ} {inf : α → (n : ℕ) → Ω → Fin n → ℝ}

theorem table_bare (h : cs.filter p = L.map fun c => ⟨γ c, τ c, est c n ω, inf c n ω⟩) (i : Fin n) :
    ((cs.filter p).map fun c => Agg.share (fun i : Fin n => G (X i ω)) (fun i => w (X i ω)) c.g * c.psi i).sum /
      Agg.totalShare (fun i : Fin n => G (X i ω)) (fun i => w (X i ω)) cs p = bareInf L γ G w X inf n ω i := by
  rw [table_total h, h, List.map_map]
  unfold bareInf ewt
  simp only [Function.comp_def, share_avg]
  rw [← Fin.sum_univ_fun_getElem L fun c => avg X (fun z => w z * isG G (γ c) z) n ω * inf c n ω i, Finset.sum_div]
  exact Finset.sum_congr rfl fun k _ => by unfold eOf; ring

end

/-! ## `agg_ddd` on a table of cells -/

section
variable {P : Measure Ω} [IsProbabilityMeasure P] {X : ℕ → Ω → 𝓧} (hX : Sampling P X) {G : 𝓧 → WithTop ℤ} {F : ℤ × ℤ → ℕ → Ω → Option ℝ}
  {I : ℤ × ℤ → (n : ℕ) → Ω → Fin n → ℝ} {θ : ℤ × ℤ → ℝ} {H : ℤ × ℤ → ℕ → Set Ω} {ψ : ℤ × ℤ → 𝓧 → ℝ} {D : List (ℤ × ℤ)} {gl tl : List ℤ}

/-- What `agg_ddd` reads: the cells that are estimated, the cohorts and periods of the data, the cohort of every unit, `compute_agg_ddd.py:77-84`. -/
noncomputable def dTable (G : 𝓧 → WithTop ℤ) (F : ℤ × ℤ → ℕ → Ω → Option ℝ) (I : ℤ × ℤ → (n : ℕ) → Ω → Fin n → ℝ) (D : List (ℤ × ℤ)) (gl tl : List ℤ) (X : ℕ → Ω → 𝓧)
    (n : ℕ) (ω : Ω) : DIn (Fin n) ℝ :=
  ⟨genTable F I D n ω, gl, tl, fun i => G (X i ω)⟩

/-- Cells of cohorts and periods of the data; no cohort is listed twice. -/
structure InData (D : List (ℤ × ℤ)) (gl tl : List ℤ) : Prop where
  cells : ∀ c ∈ D, c.1 ∈ gl ∧ c.2 ∈ tl
  nodup : gl.Nodup

/-- Units count equally. -/
abbrev each : 𝓧 → ℝ := fun _ => 1

theorem dTable_labelled (hD : InData D gl tl) (n : ℕ) (ω : Ω) : Labelled (dTable G F I D gl tl X n ω) :=
  ⟨fun _ hc => (hD.cells _ (gen_table_mem hc)).1, fun _ hc => (hD.cells _ (gen_table_mem hc)).2, hD.nodup⟩

include hX

section
variable {q : ℤ × ℤ → Bool} (hC : ∀ c ∈ D.filter q, CellFit P X G each F I θ H ψ c)
include hC

/-- Total share, estimate and reported influence values of the cells in a mask. -/
theorem d_facts {n : ℕ} {ω : Ω} {p : Agg.Cell (Fin n) ℝ → Bool} (hp : ∀ v : Agg.Cell (Fin n) ℝ, p v = q (v.g, v.t))
    (hω : ω ∈ wGood (D.filter q) Prod.fst G each X H n) :
    Agg.totalShare (dTable G F I D gl tl X n ω).G Triple.one (dTable G F I D gl tl X n ω).cells p ≠ 0 ∧
    Agg.weightedMean (dTable G F I D gl tl X n ω).G Triple.one (dTable G F I D gl tl X n ω).cells p = wEst (D.filter q) Prod.fst G each X (gEst F) n ω ∧
    ∀ i, (((dTable G F I D gl tl X n ω).cells.filter p).map fun c => Agg.share (dTable G F I D gl tl X n ω).G Triple.one c.g * c.psi i).sum /
      Agg.totalShare (dTable G F I D gl tl X n ω).G Triple.one (dTable G F I D gl tl X n ω).cells p = bareInf (D.filter q) Prod.fst G each X I n ω i := by
  have hf := gen_filter hX hC hp (wGood_mem hω)
  refine ⟨?_, table_mean (G := G) (w := each) (X := X) (γ := Prod.fst) (τ := Prod.snd) (est := gEst F) (inf := I) hf,
    table_bare (G := G) (w := each) (X := X) (γ := Prod.fst) (τ := Prod.snd) (est := gEst F) (inf := I) hf⟩
  have := table_total (G := G) (w := each) (X := X) (γ := Prod.fst) (τ := Prod.snd) (est := gEst F) (inf := I) hf
  exact fun h => hω.2 (this.symm.trans h)

theorem d_mixed (hD : D.filter q ≠ []) (rep : (n : ℕ) → Ω → Option (ℝ × (Fin n → ℝ)))
    (hr : ∀ n, ∀ ω ∈ wGood (D.filter q) Prod.fst G each X H n, rep n ω = some (wEst (D.filter q) Prod.fst G each X (gEst F) n ω, bareInf (D.filter q) Prod.fst G each X I n ω)) :
    InferenceWith P X rep (shareMean P X G each Prod.fst θ (D.filter q)) (shareInfluence P X G each Prod.fst θ ψ (D.filter q))
      (itemInfluence P X G each Prod.fst ψ (D.filter q)) := by
  obtain ⟨est', h'⟩ := bare_regular hX (fun c hc => (hC c hc).regular) (fun c hc => (hC c hc).sq) (fun c hc => (hC c hc).cohort) hD
  exact (genq_regular hX hC hD).mixed hX h' rep fun n ω hω _ => hr n ω hω

end

/-- **Generic (overall effect).** -/
theorem d_simple (hd : InData D gl tl) (hC : ∀ c ∈ postCells D, CellFit P X G each F I θ H ψ c) (hD : postCells D ≠ []) :
    InferenceWith P X (fun n ω => repOf (dSimple none (dTable G F I D gl tl X n ω)).1 (dSimple none (dTable G F I D gl tl X n ω)).2)
      (shareMean P X G each Prod.fst θ (postCells D)) (shareInfluence P X G each Prod.fst θ ψ (postCells D)) (itemInfluence P X G each Prod.fst ψ (postCells D)) := by
  refine d_mixed hX hC hD _ fun n ω hω => ?_
  have hl := dTable_labelled (G := G) (F := F) (I := I) (X := X) hd n ω
  obtain ⟨h1, h2, h3⟩ := d_facts hX hC (gl := gl) (tl := tl) (p := Agg.post) (fun v => rfl) hω
  have e1 := C54_simple _ hl h1
  have e2 : (dSimple none (dTable G F I D gl tl X n ω)).2 = bareInf (postCells D) Prod.fst G each X I n ω := by
    funext i
    show dPsi _ _ i = _
    rw [List.filter_congr fun c hc => dPost_none hl hc, dPsi_eq hl]
    exact h3 i
  rw [e1, e2, h2]
  rfl

theorem d_event_facts (hd : InData D gl tl) {e : ℤ} (hC : ∀ c ∈ eventCells D e, CellFit P X G each F I θ H ψ c) (hD : eventCells D e ≠ []) {minE maxE : Option ℤ}
    (he : Agg.inRange minE maxE e) {n : ℕ} {ω : Ω} (hω : ω ∈ wGood (eventCells D e) Prod.fst G each X H n) :
    (∃ r ∈ (dEvent minE maxE (dTable G F I D gl tl X n ω)).effects, r.label = e) ∧
    ∀ r ∈ (dEvent minE maxE (dTable G F I D gl tl X n ω)).effects, r.label = e →
      r.att = some (wEst (eventCells D e) Prod.fst G each X (gEst F) n ω) ∧ r.psi = bareInf (eventCells D e) Prod.fst G each X I n ω := by
  have hl := dTable_labelled (G := G) (F := F) (I := I) (X := X) hd n ω
  obtain ⟨c, hc⟩ := List.exists_mem_of_ne_nil _ hD
  obtain ⟨h1, h2, h3⟩ := d_facts hX hC (gl := gl) (tl := tl) (p := Agg.atEvent e) (fun v => rfl) hω
  refine ⟨?_, fun r hr hre => ?_⟩
  · obtain ⟨v, hv, hg, ht⟩ := gen_mem hX hC hc (wGood_mem hω c hc)
    have hct := (List.mem_filter.1 hc).2
    simp only [decide_eq_true_eq] at hct
    refine ⟨_, List.mem_map.2 ⟨e, List.mem_filter.2 ⟨?_, (Agg.rangeFilter minE maxE e).2 he⟩, rfl⟩, ?_⟩
    · rw [Agg.mem_uniqueSorted]
      exact List.mem_map.2 ⟨v, hv, by rw [hg, ht]; exact hct⟩
    · unfold dEff
      split_ifs <;> rfl
  · obtain ⟨e1, e2⟩ := C54_event _ hl minE maxE r hr (by rw [hre]; exact h1)
    rw [hre] at e1 e2
    exact ⟨by rw [e1, h2]; rfl, funext fun i => (e2 i).trans (h3 i)⟩

/-- **Generic (effects by event time).** -/
theorem d_event (hd : InData D gl tl) {e : ℤ} (hC : ∀ c ∈ eventCells D e, CellFit P X G each F I θ H ψ c) (hD : eventCells D e ≠ []) {minE maxE : Option ℤ}
    (he : Agg.inRange minE maxE e) :
    InferenceWith P X (fun n ω => rowOf (dEvent minE maxE (dTable G F I D gl tl X n ω)).effects e)
      (shareMean P X G each Prod.fst θ (eventCells D e)) (shareInfluence P X G each Prod.fst θ ψ (eventCells D e)) (itemInfluence P X G each Prod.fst ψ (eventCells D e)) := by
  refine d_mixed hX hC hD _ fun n ω hω => ?_
  obtain ⟨h1, h2⟩ := d_event_facts hX hd hC hD he hω
  exact rowOf_eq h1 h2

theorem d_period_facts (hd : InData D gl tl) {t : ℤ} (hC : ∀ c ∈ periodCells D t, CellFit P X G each F I θ H ψ c) (hD : periodCells D t ≠ [])
    {n : ℕ} {ω : Ω} (hω : ω ∈ wGood (periodCells D t) Prod.fst G each X H n) :
    (∃ r ∈ (dCalendar (dTable G F I D gl tl X n ω)).effects, r.label = t) ∧
    ∀ r ∈ (dCalendar (dTable G F I D gl tl X n ω)).effects, r.label = t →
      r.att = some (wEst (periodCells D t) Prod.fst G each X (gEst F) n ω) ∧ r.psi = bareInf (periodCells D t) Prod.fst G each X I n ω := by
  have hl := dTable_labelled (G := G) (F := F) (I := I) (X := X) hd n ω
  obtain ⟨c, hc⟩ := List.exists_mem_of_ne_nil _ hD
  obtain ⟨h1, h2, h3⟩ := d_facts hX hC (gl := gl) (tl := tl) (p := Agg.atPeriod t) (fun v => rfl) hω
  refine ⟨?_, fun r hr hre => ?_⟩
  · obtain ⟨v, hv, hg, ht⟩ := gen_mem hX hC hc (wGood_mem hω c hc)
    have hct := (List.mem_filter.1 hc).2
    simp only [decide_eq_true_eq] at hct
    have hs := dLookup_pairwise (dTable G F I D gl tl X n ω)
    have htl : v.t ∈ dLookup (dTable G F I D gl tl X n ω) := (mem_dLookup _ _).2 (.inl (hl.t v hv))
    refine ⟨_, List.mem_map.2 ⟨Agg.code (dLookup (dTable G F I D gl tl X n ω)) v.t, List.mem_filter.2 ⟨List.mem_map.2
      ⟨(Agg.code (dLookup (dTable G F I D gl tl X n ω)) v.t : ℤ), ?_, Int.toNat_natCast _⟩, ?_⟩, rfl⟩, ?_⟩
    · rw [Agg.mem_uniqueSorted]
      exact List.mem_map.2 ⟨v, hv, rfl⟩
    · rw [decide_eq_true_eq]
      have hgl : v.g ∈ dLookup (dTable G F I D gl tl X n ω) := (mem_dLookup _ _).2 (.inr (hl.g v hv))
      refine le_trans ?_ ((Agg.code_le hs hgl htl).2 (by rw [hg, ht]; omega))
      have hm : Agg.code (dLookup (dTable G F I D gl tl X n ω)) v.g ∈ (dTable G F I D gl tl X n ω).cells.map fun c => Agg.code (dLookup (dTable G F I D gl tl X n ω)) c.g :=
        List.mem_map.2 ⟨v, hv, rfl⟩
      cases hmin : ((dTable G F I D gl tl X n ω).cells.map fun c => Agg.code (dLookup (dTable G F I D gl tl X n ω)) c.g).min? with
      | none => exact Nat.zero_le _
      | some b => exact (List.min?_eq_some_iff.1 hmin).2 _ hm
    · have : ∀ kept : List (Agg.Cell (Fin n) ℝ), (dEff (dTable G F I D gl tl X n ω) (Agg.t2orig (dLookup (dTable G F I D gl tl X n ω))
          (Agg.code (dLookup (dTable G F I D gl tl X n ω)) v.t)) kept).label = t := fun kept => by
        rw [Agg.t2orig_code hs htl]
        unfold dEff
        split_ifs <;> exact ht.trans hct.1
      exact this _
  · obtain ⟨e1, e2⟩ := C54_calendar _ hl r hr (by rw [hre]; exact h1)
    rw [hre] at e1 e2
    exact ⟨by rw [e1, h2]; rfl, funext fun i => (e2 i).trans (h3 i)⟩

/-- **Generic (effects by calendar period).** -/
theorem d_period (hd : InData D gl tl) {t : ℤ} (hC : ∀ c ∈ periodCells D t, CellFit P X G each F I θ H ψ c) (hD : periodCells D t ≠ []) :
    InferenceWith P X (fun n ω => rowOf (dCalendar (dTable G F I D gl tl X n ω)).effects t)
      (shareMean P X G each Prod.fst θ (periodCells D t)) (shareInfluence P X G each Prod.fst θ ψ (periodCells D t)) (itemInfluence P X G each Prod.fst ψ (periodCells D t)) := by
  refine d_mixed hX hC hD _ fun n ω hω => ?_
  obtain ⟨h1, h2⟩ := d_period_facts hX hd hC hD hω
  exact rowOf_eq h1 h2

end

/-! ## Variances -/

section
variable {P : Measure Ω} [IsProbabilityMeasure P] {X : ℕ → Ω → 𝓧}

theorem Regular.sq {est : ℕ → Ω → ℝ} {inf : (n : ℕ) → Ω → Fin n → ℝ} {θ : ℝ} {G : ℕ → Set Ω} {ψ : 𝓧 → ℝ} (h : Regular P X est inf θ G ψ) : SqInt P X ψ := by
  obtain ⟨⟨m, l, u, a, a', f, c, c', hp, hψ⟩, -⟩ := h
  rw [← funext hψ]
  exact ⟨Finset.measurable_fun_sum _ fun j _ => (hp.u2 j).1.const_mul _, memLp_finsetSum _ fun j _ => (hp.u2 j).2.const_mul _⟩

theorem Regular.zero {est : ℕ → Ω → ℝ} {inf : (n : ℕ) → Ω → Fin n → ℝ} {θ : ℝ} {G : ℕ → Set Ω} {ψ : 𝓧 → ℝ} (h : Regular P X est inf θ G ψ) : pop P X ψ = 0 := by
  obtain ⟨⟨m, l, u, a, a', f, c, c', hp, hψ⟩, -⟩ := h
  rw [← funext hψ]
  unfold pop
  rw [integral_finsetSum _ fun j _ => ((hp.u2 j).2.integrable (by norm_num)).const_mul _]
  refine Finset.sum_eq_zero fun j _ => ?_
  rw [integral_const_mul, show ∫ ω, u j (X 0 ω) ∂P = 0 from hp.u0 j, mul_zero]

theorem sq_comb {J : Type*} [Fintype J] (a : J → ℝ) {f : J → 𝓧 → ℝ} (hf : ∀ j, SqInt P X (f j)) : SqInt P X fun z => ∑ j, a j * f j z :=
  ⟨Finset.measurable_fun_sum _ fun j _ => (hf j).1.const_mul _, memLp_finsetSum _ fun j _ => (hf j).2.const_mul _⟩

theorem sq_prod {f h : 𝓧 → ℝ} (hf : SqInt P X f) (hh : SqInt P X h) : Integrable (fun ω => f (X 0 ω) * h (X 0 ω)) P := hf.2.integrable_mul hh.2

theorem pop_orth {J K : Type*} [Fintype J] [Fintype K] (a : J → ℝ) (b : K → ℝ) {f : J → 𝓧 → ℝ} {h : K → 𝓧 → ℝ} (hf : ∀ j, SqInt P X (f j)) (hh : ∀ k, SqInt P X (h k))
    (h0 : ∀ j k, pop P X (fun z => f j z * h k z) = 0) : pop P X (fun z => (∑ j, a j * f j z) * ∑ k, b k * h k z) = 0 := by
  have e : (fun z => (∑ j, a j * f j z) * ∑ k, b k * h k z) = fun z => ∑ j, ∑ k, a j * b k * (f j z * h k z) := by
    funext z
    rw [Finset.sum_mul_sum]
    exact Finset.sum_congr rfl fun j _ => Finset.sum_congr rfl fun k _ => by ring
  rw [e]
  unfold pop
  have hi : ∀ j k, Integrable (fun ω => a j * b k * (f j (X 0 ω) * h k (X 0 ω))) P := fun j k => (sq_prod (hf j) (hh k)).const_mul _
  rw [integral_finsetSum _ fun j _ => integrable_finsetSum _ fun k _ => hi j k]
  refine Finset.sum_eq_zero fun j _ => ?_
  rw [integral_finsetSum _ fun k _ => hi j k]
  refine Finset.sum_eq_zero fun k _ => ?_
  rw [integral_const_mul, show ∫ ω, f j (X 0 ω) * h k (X 0 ω) ∂P = 0 from h0 j k, mul_zero]

theorem pop_pyth {f h : 𝓧 → ℝ} (hf : SqInt P X f) (hh : SqInt P X h) (h0 : pop P X (fun z => f z * h z) = 0) :
    pop P X (fun z => (f z + h z) ^ 2) = pop P X (fun z => f z ^ 2) + pop P X fun z => h z ^ 2 := by
  have e : (fun z => (f z + h z) ^ 2) = fun z => (f z ^ 2 + 2 * (f z * h z)) + h z ^ 2 := funext fun z => by ring
  rw [e]
  unfold pop
  have h1 : Integrable (fun ω => f (X 0 ω) ^ 2) P := hf.2.integrable_sq
  have h2 : Integrable (fun ω => h (X 0 ω) ^ 2) P := hh.2.integrable_sq
  have h3 : Integrable (fun ω => 2 * (f (X 0 ω) * h (X 0 ω))) P := (sq_prod hf hh).const_mul 2
  have a1 : ∫ ω, (f (X 0 ω) ^ 2 + 2 * (f (X 0 ω) * h (X 0 ω))) + h (X 0 ω) ^ 2 ∂P = ∫ ω, f (X 0 ω) ^ 2 + 2 * (f (X 0 ω) * h (X 0 ω)) ∂P + ∫ ω, h (X 0 ω) ^ 2 ∂P :=
    integral_add (h1.add h3) h2
  have a2 : ∫ ω, f (X 0 ω) ^ 2 + 2 * (f (X 0 ω) * h (X 0 ω)) ∂P = ∫ ω, f (X 0 ω) ^ 2 ∂P + ∫ ω, 2 * (f (X 0 ω) * h (X 0 ω)) ∂P := integral_add h1 h3
  refine a1.trans ?_
  rw [a2, integral_const_mul, show ∫ ω, f (X 0 ω) * h (X 0 ω) ∂P = 0 from h0, mul_zero, add_zero]

variable {G : 𝓧 → WithTop ℤ} {θ : ℤ × ℤ → ℝ} {ψ : ℤ × ℤ → 𝓧 → ℝ} {L : List (ℤ × ℤ)}

/-- If the influences of the cells are uncorrelated with the cohorts, the variances through the cells and through the shares add up. -/
theorem var_split (h1 : ∀ c ∈ L, SqInt P X (ψ c)) (h2 : ∀ c ∈ L, SqInt P X (isG G c.1)) (h3 : ∀ c ∈ L, ∀ g, pop P X (fun z => ψ c z * isG G g z) = 0) :
    pop P X (fun z => shareInfluence P X G each Prod.fst θ ψ L z ^ 2) =
      pop P X (fun z => itemInfluence P X G each Prod.fst ψ L z ^ 2) + pop P X fun z => shareOnly P X G each Prod.fst θ L z ^ 2 := by
  obtain ⟨S, hS⟩ : ∃ S, S = (L.map fun c => popShare P X G each (c.1)).sum := ⟨_, rfl⟩
  have e1 : itemInfluence P X G each Prod.fst ψ L = fun z => ∑ k : Fin L.length, popShare P X G each L[k.1].1 / S * ψ L[k.1] z := by
    funext z
    unfold itemInfluence
    rw [← hS, ← Fin.sum_univ_fun_getElem L fun c => popShare P X G each c.1 * ψ c z, Finset.sum_div]
    exact Finset.sum_congr rfl fun k _ => by ring
  have e2 : shareOnly P X G each Prod.fst θ L = fun z => ∑ k : Fin L.length, (θ L[k.1] - shareMean P X G each Prod.fst θ L) / S * isG G L[k.1].1 z := by
    funext z
    unfold shareOnly
    rw [← hS, ← Fin.sum_univ_fun_getElem L fun c => each z * isG G c.1 z * (θ c - shareMean P X G each Prod.fst θ L), Finset.sum_div]
    exact Finset.sum_congr rfl fun k _ => by ring
  simp only [share_split]
  refine pop_pyth ?_ ?_ ?_
  · rw [e1]
    exact sq_comb _ fun k => h1 _ (List.getElem_mem k.2)
  · rw [e2]
    exact sq_comb _ fun k => h2 _ (List.getElem_mem k.2)
  · rw [e1, e2]
    exact pop_orth _ _ (fun k => h1 _ (List.getElem_mem k.2)) (fun k => h2 _ (List.getElem_mem k.2)) fun j k => h3 _ (List.getElem_mem j.2) _

/-- Cohorts with different effects give the shares influence. -/
theorem share_pos (h2 : ∀ c ∈ L, SqInt P X (isG G c.1)) (h3 : ∀ c ∈ L, 0 < popShare P X G each c.1) (hn : (L.map Prod.fst).Nodup) {c c' : ℤ × ℤ} (hc : c ∈ L) (hc' : c' ∈ L)
    (hne : θ c ≠ θ c') : 0 < pop P X fun z => shareOnly P X G each Prod.fst θ L z ^ 2 := by
  wlog hm : θ c ≠ shareMean P X G each Prod.fst θ L generalizing c c'
  · exact this hc' hc hne.symm fun h => hne ((not_not.1 hm).trans h.symm)
  obtain ⟨S, hS⟩ : ∃ S, S = (L.map fun c => popShare P X G each (c.1)).sum := ⟨_, rfl⟩
  have hS0 : 0 < S := by
    rw [hS]
    refine List.sum_pos _ (fun v hv => ?_) (by simpa using List.ne_nil_of_mem hc)
    obtain ⟨d, hd, rfl⟩ := List.mem_map.1 hv
    exact h3 d hd
  obtain ⟨r, hr⟩ : ∃ r, r = ((θ c - shareMean P X G each Prod.fst θ L) / S) ^ 2 := ⟨_, rfl⟩
  have hr0 : 0 < r := by
    have : (θ c - shareMean P X G each Prod.fst θ L) / S ≠ 0 := div_ne_zero (sub_ne_zero.2 hm) hS0.ne'
    rw [hr]
    positivity
  have e2 : shareOnly P X G each Prod.fst θ L = fun z => ∑ k : Fin L.length, (θ L[k.1] - shareMean P X G each Prod.fst θ L) / S * isG G L[k.1].1 z := by
    funext z
    unfold shareOnly
    rw [← hS, ← Fin.sum_univ_fun_getElem L fun c => each z * isG G c.1 z * (θ c - shareMean P X G each Prod.fst θ L), Finset.sum_div]
    exact Finset.sum_congr rfl fun k _ => by ring
  obtain ⟨i, hi, rfl⟩ := List.getElem_of_mem hc
  have hval : ∀ z, G z = (L[i].1 : WithTop ℤ) → shareOnly P X G each Prod.fst θ L z = (θ L[i] - shareMean P X G each Prod.fst θ L) / S := by
    intro z hz
    rw [e2]
    dsimp only
    rw [Finset.sum_eq_single (⟨i, hi⟩ : Fin L.length)]
    · rw [isG, if_pos hz, mul_one]
    · intro k _ hk
      rw [isG, if_neg, mul_zero]
      intro h
      rw [hz, WithTop.coe_inj] at h
      have := hn.getElem_inj_iff (i := i) (j := k.1) (hi := by simpa using hi) (hj := by simp)
      simp only [List.getElem_map] at this
      exact hk (Fin.ext (this.1 h).symm)
    · intro h
      exact absurd (Finset.mem_univ _) h
  have hle : ∀ z, r * (each z * isG G L[i].1 z) ≤ shareOnly P X G each Prod.fst θ L z ^ 2 := by
    intro z
    by_cases hz : G z = (L[i].1 : WithTop ℤ)
    · rw [hval z hz, ← hr, isG, if_pos hz]
      simp
    · rw [isG, if_neg hz, mul_zero, mul_zero]
      positivity
  have hsq : SqInt P X (shareOnly P X G each Prod.fst θ L) := by
    rw [e2]
    exact sq_comb _ fun k => h2 _ (List.getElem_mem k.2)
  have hint : Integrable (fun ω => r * (each (X 0 ω) * isG G L[i].1 (X 0 ω))) P := by
    have : Integrable (fun ω => isG G L[i].1 (X 0 ω)) P := (h2 _ (List.getElem_mem hi)).2.integrable (by norm_num)
    simpa only [one_mul] using this.const_mul r
  have hmono : ∫ ω, r * (each (X 0 ω) * isG G L[i].1 (X 0 ω)) ∂P ≤ ∫ ω, shareOnly P X G each Prod.fst θ L (X 0 ω) ^ 2 ∂P :=
    integral_mono hint hsq.2.integrable_sq fun ω => hle (X 0 ω)
  rw [integral_const_mul] at hmono
  have h4 : 0 < r * ∫ ω, each (X 0 ω) * isG G L[i].1 (X 0 ω) ∂P := mul_pos hr0 (h3 _ (List.getElem_mem hi))
  exact h4.trans_le hmono

/-- A standard error that leaves out part of the variance: the coverage tends to a number below `1 - alpha`. -/
theorem InferenceWith.under {rep : (n : ℕ) → Ω → Option (ℝ × (Fin n → ℝ))} {θ r : ℝ} {ψ ψ' : 𝓧 → ℝ} (h : InferenceWith P X rep θ ψ ψ') (hr : 0 < r)
    (hv : pop P X (fun z => ψ z ^ 2) = pop P X (fun z => ψ' z ^ 2) + r) (hv' : 0 < pop P X fun z => ψ' z ^ 2) (alpha : ℝ) (ha0 : 0 < alpha) (ha1 : alpha < 1) :
    ∃ l < 1 - alpha, Tendsto (fun n => P.real {ω | ∃ att psi, rep n ω = some (att, psi) ∧ (Report.rowInterval (Report.zcrit alpha) att (plainSe psi)).1 ≤ θ ∧
      θ ≤ (Report.rowInterval (Report.zcrit alpha) att (plainSe psi)).2}) atTop (𝓝 l) := by
  refine ⟨_, ?_, h.coverage alpha ha0 ha1 (by rw [hv]; positivity) hv'⟩
  have hz : Phi (Report.zcrit alpha) = 1 - alpha / 2 := phi_ppf _ (by linarith) (by linarith)
  have hlt : Real.sqrt (pop P X fun z => ψ' z ^ 2) / Real.sqrt (pop P X fun z => ψ z ^ 2) < 1 := by
    rw [div_lt_one (Real.sqrt_pos.2 (by rw [hv]; positivity)), hv]
    exact Real.sqrt_lt_sqrt hv'.le (by linarith)
  have h0 : 0 < Report.zcrit alpha := ppf_half alpha ha0 ha1
  have := phi_strictMono (mul_lt_of_lt_one_right h0 hlt)
  linarith

end

/-! ## C284: triple-difference cells -/

/-- The cells of `ddd` with the never treated as comparison: estimate and influence values of every cohort and period. -/
noncomputable def tripleF (G : 𝓧 → WithTop ℤ) (E : 𝓧 → Bool) (y : ℤ → 𝓧 → ℝ) (bs : ℤ × ℤ → ℤ) (X : ℕ → Ω → 𝓧) (hess : ∀ g, HessFam G E g X) (m : Est) (hi level : ℝ)
    (c : ℤ × ℤ) (n : ℕ) (ω : Ω) : Option ℝ := (tripleCellReport G E y c.1 c.2 (bs c) X (hess c.1) m hi level n ω).map Prod.fst

noncomputable def tripleI (G : 𝓧 → WithTop ℤ) (E : 𝓧 → Bool) (y : ℤ → 𝓧 → ℝ) (bs : ℤ × ℤ → ℤ) (X : ℕ → Ω → 𝓧) (hess : ∀ g, HessFam G E g X) (m : Est) (hi level : ℝ)
    (c : ℤ × ℤ) (n : ℕ) (ω : Ω) : Fin n → ℝ := ((tripleCellReport G E y c.1 c.2 (bs c) X (hess c.1) m hi level n ω).map Prod.snd).getD 0

/-- The input of `agg_ddd` on the first `n` units. -/
noncomputable abbrev tripleTable (G : 𝓧 → WithTop ℤ) (E : 𝓧 → Bool) (y : ℤ → 𝓧 → ℝ) (bs : ℤ × ℤ → ℤ) (X : ℕ → Ω → 𝓧) (hess : ∀ g, HessFam G E g X) (m : Est) (hi level : ℝ)
    (D : List (ℤ × ℤ)) (gl tl : List ℤ) (n : ℕ) (ω : Ω) : DIn (Fin n) ℝ :=
  dTable G (tripleF G E y bs X hess m hi level) (tripleI G E y bs X hess m hi level) D gl tl X n ω

section
variable {P : Measure Ω} [IsProbabilityMeasure P] {X : ℕ → Ω → 𝓧} (hX : Sampling P X) {G : 𝓧 → WithTop ℤ} {E : 𝓧 → Bool} {y u : ℤ → 𝓧 → ℝ} {level : ℝ} {bs : ℤ × ℤ → ℤ}
include hX

section
variable {g t b : ℤ} (hC : TripleCell P X G E y u level g t b)
include hC

omit hX in
theorem cohort_split (z : 𝓧) : isG G g z = qArm G E g (true, true) z + qArm G E g (true, false) z := by
  unfold isG qArm inCohort
  by_cases h : G z = (g : WithTop ℤ) <;> cases hE : E z <;> simp [h, hE]

theorem cohort_sq (g' : ℤ) : SqInt P X (isG G g') := by
  have h1 : SqInt P X fun _ => (1 : ℝ) := ⟨measurable_const, memLp_const 1⟩
  have hm : Measurable (isG G g') := Measurable.ite (hC.measG {c | c = (g' : WithTop ℤ)}) measurable_const measurable_const
  have := h1.mul_le (hX.aemeas 0) hm fun z => by
    unfold isG
    split_ifs <;> norm_num
  simpa only [one_mul] using this

theorem cohort_pos : 0 < popShare P X G each g := by
  have e : (fun z => each z * isG G g z) = fun z => qArm G E g (true, true) z + qArm G E g (true, false) z := by
    funext z
    rw [one_mul, cohort_split hC]
  have h1 := (qArm_sq hX hC (true, true)).1.2.integrable (by norm_num)
  have h2 := (qArm_sq hX hC (true, false)).1.2.integrable (by norm_num)
  have h3 : popShare P X G each g = pop P X (qArm G E g (true, true)) + pop P X (qArm G E g (true, false)) := by
    unfold popShare
    rw [e]
    exact integral_add h1 h2
  rw [h3]
  exact add_pos (qArm_pos hC _) (qArm_pos hC _)

/-- The influence of a cell is uncorrelated with the cohorts. -/
theorem triple_orth (g' : ℤ) : pop P X (fun z => tripleCellInfluence P X G E y g t b z * isG G g' z) = 0 := by
  have hr := fun k => mean_regular hX (qArm_sq hX hC k).1 (qArm_sq hX hC k).2 (qArm_pos hC k).ne'
  obtain ⟨v, hv⟩ : ∃ v : Bool × Bool → 𝓧 → ℝ, v = fun k z => qArm G E g k z * (y t z - y b z - pop P X (fun z => qArm G E g k z * (y t z - y b z)) / pop P X (qArm G E g k)) /
    pop P X (qArm G E g k) := ⟨_, rfl⟩
  have hv2 : ∀ k, SqInt P X (v k) := fun k => by
    rw [hv]
    exact (hr k).sq
  have hv0 : ∀ k, pop P X (v k) = 0 := fun k => by
    rw [hv]
    exact (hr k).zero
  have hψ : ∀ z, tripleCellInfluence P X G E y g t b z * isG G g' z = ∑ k : Bool × Bool, (armSign k * if k.1 = true ∧ g' = g then 1 else 0) * v k z := by
    intro z
    have hs4 : ∀ F : Bool × Bool → ℝ, ∑ k, F k = (F (true, true) + F (true, false)) + (F (false, true) + F (false, false)) := fun F => by
      simp only [Fintype.sum_prod_type, Fintype.sum_bool]
    have h1 : tripleCellInfluence P X G E y g t b z = (v (true, true) z - v (true, false) z) - (v (false, true) z - v (false, false) z) := by
      rw [hv]
      rfl
    have hz : ∀ k, qArm G E g k z = 0 → v k z = 0 := fun k hk => by
      rw [hv]
      dsimp only
      rw [hk, zero_mul, zero_div]
    rw [h1, hs4]
    unfold isG
    by_cases h : G z = (g' : WithTop ℤ)
    · have hn : ∀ q, v (false, q) z = 0 := fun q => hz _ (by simp [qArm, inNever, h])
      rw [if_pos h, hn, hn]
      by_cases h' : g' = g
      · simp [armSign, h']
        ring
      · have hc : ∀ q, v (true, q) z = 0 := fun q => hz _ (by
          have : (g' : WithTop ℤ) ≠ (g : WithTop ℤ) := fun hh => h' (WithTop.coe_inj.1 hh)
          simp [qArm, inCohort, h, this])
        simp [hc]
    · rw [if_neg h, mul_zero]
      by_cases h' : g' = g
      · have hc : ∀ q, v (true, q) z = 0 := fun q => hz _ (by
          rw [h'] at h
          simp [qArm, inCohort, h])
        simp [hc]
      · simp [h']
  simp only [hψ]
  rw [pop_sum hX _ _ hv2]
  exact Finset.sum_eq_zero fun k _ => by rw [hv0, mul_zero]

end

theorem triple_fit (hess : ∀ g, HessFam G E g X) (m : Est) {hi : ℝ} (hi0 : 0 < hi) (hi1 : hi < 1) {c : ℤ × ℤ} (hC : TripleCell P X G E y u level c.1 c.2 (bs c)) :
    CellFit P X G each (tripleF G E y bs X hess m hi level) (tripleI G E y bs X hess m hi level) (fun c => eligibleATT P X G E y u c.1 c.2) (fun c => qGood G E level c.1 X)
      (fun c => tripleCellInfluence P X G E y c.1 c.2 (bs c)) c := by
  refine ⟨triple_regular hX hC (hess c.1) m hi0 hi1, fun n ω hω => ?_, fun _ => zero_le_one, ?_, cohort_pos hX hC⟩
  · unfold gEst tripleF
    rw [triple_eq (hess c.1) m hi0 hi1 hω]
    rfl
  · simpa only [one_mul] using cohort_sq hX hC c.1

variable (hess : ∀ g, HessFam G E g X) (m : Est) {hi : ℝ} (hi0 : 0 < hi) (hi1 : hi < 1) {D : List (ℤ × ℤ)} {gl tl : List ℤ} (hd : InData D gl tl)
include hi0 hi1 hd

/-- **C284 (overall effect).**  With probability one the simple aggregation of `agg_ddd` tends to the mean of the cells' effects on the eligible, weighted by the shares of the
whole cohorts; its standard error reflects the influence through the cells only. -/
theorem C284_simple (hC : ∀ c ∈ postCells D, TripleCell P X G E y u level c.1 c.2 (bs c)) (hD : postCells D ≠ []) :
    InferenceWith P X (fun n ω => repOf (dSimple none (tripleTable G E y bs X hess m hi level D gl tl n ω)).1 (dSimple none (tripleTable G E y bs X hess m hi level D gl tl n ω)).2)
      (shareMean P X G each Prod.fst (fun c => eligibleATT P X G E y u c.1 c.2) (postCells D))
      (shareInfluence P X G each Prod.fst (fun c => eligibleATT P X G E y u c.1 c.2) (fun c => tripleCellInfluence P X G E y c.1 c.2 (bs c)) (postCells D))
      (itemInfluence P X G each Prod.fst (fun c => tripleCellInfluence P X G E y c.1 c.2 (bs c)) (postCells D)) :=
  d_simple hX hd (fun c hc => triple_fit hX hess m hi0 hi1 (hC c hc)) hD

/-- **C284 (effects by event time).** -/
theorem C284_event {e : ℤ} (hC : ∀ c ∈ eventCells D e, TripleCell P X G E y u level c.1 c.2 (bs c)) (hD : eventCells D e ≠ []) {minE maxE : Option ℤ}
    (he : Agg.inRange minE maxE e) :
    InferenceWith P X (fun n ω => rowOf (dEvent minE maxE (tripleTable G E y bs X hess m hi level D gl tl n ω)).effects e)
      (shareMean P X G each Prod.fst (fun c => eligibleATT P X G E y u c.1 c.2) (eventCells D e))
      (shareInfluence P X G each Prod.fst (fun c => eligibleATT P X G E y u c.1 c.2) (fun c => tripleCellInfluence P X G E y c.1 c.2 (bs c)) (eventCells D e))
      (itemInfluence P X G each Prod.fst (fun c => tripleCellInfluence P X G E y c.1 c.2 (bs c)) (eventCells D e)) :=
  d_event hX hd (fun c hc => triple_fit hX hess m hi0 hi1 (hC c hc)) hD he

/-- **C284 (effects by calendar period).** -/
theorem C284_period {t : ℤ} (hC : ∀ c ∈ periodCells D t, TripleCell P X G E y u level c.1 c.2 (bs c)) (hD : periodCells D t ≠ []) :
    InferenceWith P X (fun n ω => rowOf (dCalendar (tripleTable G E y bs X hess m hi level D gl tl n ω)).effects t)
      (shareMean P X G each Prod.fst (fun c => eligibleATT P X G E y u c.1 c.2) (periodCells D t))
      (shareInfluence P X G each Prod.fst (fun c => eligibleATT P X G E y u c.1 c.2) (fun c => tripleCellInfluence P X G E y c.1 c.2 (bs c)) (periodCells D t))
      (itemInfluence P X G each Prod.fst (fun c => tripleCellInfluence P X G E y c.1 c.2 (bs c)) (periodCells D t)) :=
  d_period hX hd (fun c hc => triple_fit hX hess m hi0 hi1 (hC c hc)) hD

omit hi0 hi1 hd in
/-- **C284 (variance).**  The variance of the estimate is the one the standard error reflects plus that of the cohort shares. -/
theorem C284_variance {L : List (ℤ × ℤ)} (hC : ∀ c ∈ L, TripleCell P X G E y u level c.1 c.2 (bs c)) :
    pop P X (fun z => shareInfluence P X G each Prod.fst (fun c => eligibleATT P X G E y u c.1 c.2) (fun c => tripleCellInfluence P X G E y c.1 c.2 (bs c)) L z ^ 2) =
      pop P X (fun z => itemInfluence P X G each Prod.fst (fun c => tripleCellInfluence P X G E y c.1 c.2 (bs c)) L z ^ 2) +
      pop P X fun z => shareOnly P X G each Prod.fst (fun c => eligibleATT P X G E y u c.1 c.2) L z ^ 2 :=
  var_split (fun c hc => (triple_regular hX (hC c hc) (fun _ _ _ _ _ _ => 0) .reg (hi := 1 / 2) (by norm_num) (by norm_num)).sq) (fun c hc => cohort_sq hX (hC c hc) c.1)
    fun c hc g => triple_orth hX (hC c hc) g

/-- **C284 (violated: coverage).**  If the cohorts that enter an event-time effect differ in their effects, the coverage of the reported interval tends to a number below
`1 - alpha`. -/
theorem C284_coverage_violated {e : ℤ} (hC : ∀ c ∈ eventCells D e, TripleCell P X G E y u level c.1 c.2 (bs c)) (hnd : D.Nodup) {minE maxE : Option ℤ}
    (he : Agg.inRange minE maxE e) {c c' : ℤ × ℤ} (hc : c ∈ eventCells D e) (hc' : c' ∈ eventCells D e)
    (hne : eligibleATT P X G E y u c.1 c.2 ≠ eligibleATT P X G E y u c'.1 c'.2)
    (hv : 0 < pop P X fun z => itemInfluence P X G each Prod.fst (fun c => tripleCellInfluence P X G E y c.1 c.2 (bs c)) (eventCells D e) z ^ 2)
    (alpha : ℝ) (ha0 : 0 < alpha) (ha1 : alpha < 1) :
    ∃ l < 1 - alpha, Tendsto (fun n => P.real {ω | ∃ att psi, rowOf (dEvent minE maxE (tripleTable G E y bs X hess m hi level D gl tl n ω)).effects e = some (att, psi) ∧
      (Report.rowInterval (Report.zcrit alpha) att (plainSe psi)).1 ≤ shareMean P X G each Prod.fst (fun c => eligibleATT P X G E y u c.1 c.2) (eventCells D e) ∧
      shareMean P X G each Prod.fst (fun c => eligibleATT P X G E y u c.1 c.2) (eventCells D e) ≤ (Report.rowInterval (Report.zcrit alpha) att (plainSe psi)).2}) atTop (𝓝 l) := by
  have hn : ((eventCells D e).map Prod.fst).Nodup := by
    refine List.Nodup.map_on (fun a ha b hb hab => ?_) (hnd.filter _)
    have h1 := (List.mem_filter.1 ha).2
    have h2 := (List.mem_filter.1 hb).2
    simp only [decide_eq_true_eq] at h1 h2
    exact Prod.ext hab (by omega)
  exact (C284_event hX hess m hi0 hi1 hd hC (List.ne_nil_of_mem hc) he).under
    (share_pos (θ := fun c => eligibleATT P X G E y u c.1 c.2) (fun c hc => cohort_sq hX (hC c hc) c.1) (fun c hc => cohort_pos hX (hC c hc)) hn hc hc' hne) (C284_variance hX hC) hv alpha ha0 ha1

end

/-! ## Non-vacuity: the two cohorts of `Crews`, effects 9/2 and 13/2 in their first periods -/

def crewCells : List (ℤ × ℤ) := [(2, 2), (2, 3), (3, 3)]

theorem crew_data : InData crewCells [2, 3] [1, 2, 3] := ⟨by decide, by decide⟩

theorem crew_ok : ∀ c ∈ crewCells, TripleCell (draws Crews) draw cwG cwE cwY cwU (995 / 1000) c.1 c.2 (c.1 - 1) := by
  intro c hc
  simp only [crewCells, List.mem_cons, List.not_mem_nil, or_false] at hc
  rcases hc with rfl | rfl | rfl
  exacts [cw_ok 2 2 1 (by simp), cw_ok 2 3 1 (by simp), cw_ok 3 3 2 (by simp)]

theorem crew_zero : eventCells crewCells 0 = [(2, 2), (3, 3)] := by decide

/-- The coverage of the effect at event time 0 falls short of `1 - alpha` for every `alpha`, with the default method, cap and trimming level. -/
example (hess : ∀ g, HessFam cwG cwE g (draw (𝓧 := Crews))) (alpha : ℝ) (ha0 : 0 < alpha) (ha1 : alpha < 1) :
    ∃ l < 1 - alpha, Tendsto (fun n => (draws Crews).real {ω | ∃ att psi,
      rowOf (dEvent none none (tripleTable cwG cwE cwY (fun c => c.1 - 1) draw hess .dr (1 - 1 / 10 ^ 6) (995 / 1000) crewCells [2, 3] [1, 2, 3] n ω)).effects 0 = some (att, psi) ∧
      (Report.rowInterval (Report.zcrit alpha) att (plainSe psi)).1 ≤ shareMean (draws Crews) draw cwG each Prod.fst (fun c => eligibleATT (draws Crews) draw cwG cwE cwY cwU c.1 c.2) (eventCells crewCells 0) ∧
      shareMean (draws Crews) draw cwG each Prod.fst (fun c => eligibleATT (draws Crews) draw cwG cwE cwY cwU c.1 c.2) (eventCells crewCells 0) ≤
        (Report.rowInterval (Report.zcrit alpha) att (plainSe psi)).2}) atTop (𝓝 l) := by
  refine C284_coverage_violated draws_sampling hess .dr (by norm_num) (by norm_num) crew_data (fun c hc => crew_ok c (List.mem_filter.1 hc).1) (by decide) ⟨by simp, by simp⟩
    (c := (2, 2)) (c' := (3, 3)) (by rw [crew_zero]; simp) (by rw [crew_zero]; simp) ?_ ?_ alpha ha0 ha1
  · rw [cw_att 2 2 (.inl rfl) le_rfl, cw_att 3 3 (.inr rfl) le_rfl]
    norm_num
  · have c2 : ∀ j p, cwG (2, j, p) = ⊤ := fun _ _ => rfl
    have h1 : ∀ g : ℤ, g = 2 ∨ g = 3 → 0 < tripleCellInfluence (draws Crews) draw cwG cwE cwY g g (g - 1) (2, true, false) := by
      intro g hg
      unfold tripleCellInfluence wMean
      simp only [cw_pop, (cw_arm _ _ _ _ g hg).1, (cw_arm _ _ _ _ g hg).2]
      rcases hg with rfl | rfl <;> simp [stStart, cwY, cwU, num, cwE, c2] <;> norm_num
    have hsh : ∀ g : ℤ, g = 2 ∨ g = 3 → 0 < popShare (draws Crews) draw cwG each g := by
      rintro g (rfl | rfl)
      exacts [cohort_pos draws_sampling (cw_ok 2 2 1 (by simp)), cohort_pos draws_sampling (cw_ok 3 3 2 (by simp))]
    have h : 0 < itemInfluence (draws Crews) draw cwG each Prod.fst (fun c => tripleCellInfluence (draws Crews) draw cwG cwE cwY c.1 c.2 (c.1 - 1)) (eventCells crewCells 0) (2, true, false) := by
      rw [crew_zero]
      unfold itemInfluence
      simp only [List.map_cons, List.map_nil, List.sum_cons, List.sum_nil, add_zero]
      have a2 := h1 2 (.inl rfl)
      have a3 := h1 3 (.inr rfl)
      have b2 := hsh 2 (.inl rfl)
      have b3 := hsh 3 (.inr rfl)
      positivity
    rw [cw_pop]
    have := pow_pos h 2
    positivity

end Verif.Asym
