import Verif.Honest.ArpExist
import Mathlib.Analysis.SpecialFunctions.Pow.Real

/-!
# C237: the search for the truncation points of a degenerate optimal vertex (`compute_vlo_vup_dual`, `arp_nuisance.py:564-714`)

Numbers are exact reals.  The linear program solver is a parameter.  `none` is a raised exception (division by zero).
-/

set_option linter.unusedSectionVars false
set_option linter.unusedSimpArgs false

namespace Verif.Honest.Dual

open Finset Matrix Classical Verif.Honest

variable {r k : ℕ}

/-! ## Model -/

/-- The objective `f` of `_solve_max_program`, `arp_nuisance.py:1042-1046`. -/
noncomputable def maxObj (S : Matrix (Fin r) (Fin r) ℝ) (g s : Fin r → ℝ) (c : ℝ) (j : Fin r) : ℝ :=
  s j + (S *ᵥ g) j * c / (g ⬝ᵥ (S *ᵥ g))

/-- `tol_c` and `tol_equality`, `arp_nuisance.py:620-621`. -/
noncomputable def dualTol : ℝ := 1 / 10 ^ 6

/-- `_check_if_solution`, `arp_nuisance.py:1100-1102`; `lp` maximises a linear function over the dual feasible set (`_solve_max_program`,
1048-1065), `none` = no success.  Result: the maximiser and `is_solution`. -/
noncomputable def checkSol (lp : (Fin r → ℝ) → Option (Fin r → ℝ)) (S : Matrix (Fin r) (Fin r) ℝ) (g s : Fin r → ℝ) (c : ℝ) :
    Option (Fin r → ℝ) × Bool :=
  match lp (maxObj S g s c) with
  | none => (none, false)
  | some x => (some x, decide (|c - x ⬝ᵥ maxObj S g s c| ≤ dualTol))

/-- `_round_eps`, `arp_nuisance.py:1294-1296`. -/
noncomputable def roundEps (x : ℝ) : ℝ := if |x| < floatEps ^ (3 / 4 : ℝ) then 0 else x

/-- One step of the shortcut, `arp_nuisance.py:641-644, 653, 683-685, 693`; `none` = division by zero. -/
noncomputable def newton (S : Matrix (Fin r) (Fin r) ℝ) (g s x : Fin r → ℝ) : Option ℝ :=
  if 1 - x ⬝ᵥ dirVec S g = 0 then none else some (roundEps (x ⬝ᵥ s) / (1 - x ⬝ᵥ dirVec S g))

/-- The starting point of the shortcut, `arp_nuisance.py:644, 685`. -/
noncomputable def startMid (S : Matrix (Fin r) (Fin r) ℝ) (g s : Fin r → ℝ) (x : Option (Fin r → ℝ)) (far : ℝ) : Option ℝ :=
  match x with
  | some x => newton S g s x
  | none => some far

/-- The loop of the shortcut, `arp_nuisance.py:647-655, 687-695`: `mid` and `iters` after it.  The first argument is the number of passes
left (`switch_iters - iters`). -/
noncomputable def shortcut (lp : (Fin r → ℝ) → Option (Fin r → ℝ)) (S : Matrix (Fin r) (Fin r) ℝ) (g s : Fin r → ℝ) :
    ℕ → ℝ → ℕ → Option (ℝ × ℕ)
  | 0, mid, iters => some (mid, iters)
  | n + 1, mid, iters =>
    match checkSol lp S g s mid with
    | (_, true) => some (mid, iters)
    | (none, false) => some (mid, iters + 1)
    | (some x, false) => (newton S g s x).bind fun m => shortcut lp S g s n m (iters + 1)

/-- The bisection for the upper end, `arp_nuisance.py:659-673`; the first argument is `max_iters - iters`. -/
noncomputable def bisectUp (isSol : ℝ → Bool) : ℕ → ℝ → ℝ → ℝ → ℝ → ℝ
  | 0, _, _, mid, _ => mid
  | n + 1, low, high, mid, diff =>
    if dualTol < diff then
      if isSol ((high + low) / 2) then bisectUp isSol n ((high + low) / 2) high ((high + low) / 2) (high - (high + low) / 2)
      else bisectUp isSol n low ((high + low) / 2) ((high + low) / 2) ((high + low) / 2 - low)
    else mid

/-- The bisection for the lower end, `arp_nuisance.py:698-712`. -/
noncomputable def bisectLo (isSol : ℝ → Bool) : ℕ → ℝ → ℝ → ℝ → ℝ → ℝ
  | 0, _, _, mid, _ => mid
  | n + 1, low, high, mid, diff =>
    if dualTol < diff then
      if isSol ((low + high) / 2) then bisectLo isSol n low ((low + high) / 2) ((low + high) / 2) ((low + high) / 2 - low)
      else bisectLo isSol n ((low + high) / 2) high ((low + high) / 2) (high - (low + high) / 2)
    else mid

/-- `vup`, `arp_nuisance.py:624-673`. -/
noncomputable def searchUp (lp : (Fin r → ℝ) → Option (Fin r → ℝ)) (S : Matrix (Fin r) (Fin r) ℝ) (g s : Fin r → ℝ) (eta : ℝ) : Option (Bnd ℝ) :=
  let hi := max 100 (eta + 20 * Real.sqrt (g ⬝ᵥ (S *ᵥ g)))
  let c := checkSol lp S g s hi
  if c.2 then some Bnd.infinite
  else
    (startMid S g s c.1 hi).bind fun m0 =>
      (shortcut lp S g s 9 m0 1).map fun p =>
        Bnd.fin (bisectUp (fun t => (checkSol lp S g s t).2) (10000 - p.2) eta p.1 p.1 (dualTol + 1))

/-- `vlo`, `arp_nuisance.py:623, 676-712`. -/
noncomputable def searchLo (lp : (Fin r → ℝ) → Option (Fin r → ℝ)) (S : Matrix (Fin r) (Fin r) ℝ) (g s : Fin r → ℝ) (eta : ℝ) : Option (Bnd ℝ) :=
  let lo := min (-100) (eta - 20 * Real.sqrt (g ⬝ᵥ (S *ᵥ g)))
  let c := checkSol lp S g s lo
  if c.2 then some Bnd.infinite
  else
    (startMid S g s c.1 lo).bind fun m0 =>
      (shortcut lp S g s 9 m0 1).map fun p =>
        Bnd.fin (bisectLo (fun t => (checkSol lp S g s t).2) (10000 - p.2) p.1 eta p.1 (dualTol + 1))

/-- `compute_vlo_vup_dual`, `arp_nuisance.py:620-714`: `(vlo, vup)`. -/
noncomputable def vloVupDual (lp : (Fin r → ℝ) → Option (Fin r → ℝ)) (S : Matrix (Fin r) (Fin r) ℝ) (eta : ℝ) (s g : Fin r → ℝ) :
    Option (Bnd ℝ × Bnd ℝ) :=
  if (checkSol lp S g s eta).2 then
    (searchUp lp S g s eta).bind fun up => (searchLo lp S g s eta).map fun lo => (lo, up)
  else some (Bnd.fin eta, Bnd.infinite)

/-! ## Specification -/

/-- A bound on the absolute value of floats. -/
noncomputable def floatMax : ℝ := 2 ^ 1024


/-- The solver finds a maximiser over the dual feasible set. -/
def MaxOk (lp : (Fin r → ℝ) → Option (Fin r → ℝ)) (S : Matrix (Fin r) (Fin r) ℝ) (X : Matrix (Fin r) (Fin k) ℝ) : Prop :=
  ∀ f, ∃ x, lp f = some x ∧ OptAt S X f x

/-- The values of the statistic for which the multipliers `g` stay optimal given the residual `s`: the set the test conditions on. -/
def Stay (S : Matrix (Fin r) (Fin r) ℝ) (X : Matrix (Fin r) (Fin k) ℝ) (g s : Fin r → ℝ) : Set ℝ := {x | OptAt S X (lineAt S g s x) g}

/-- The values for which the multipliers are optimal up to `tol` in the objective. -/
def NearStay (tol : ℝ) (S : Matrix (Fin r) (Fin r) ℝ) (X : Matrix (Fin r) (Fin k) ℝ) (g s : Fin r → ℝ) : Set ℝ :=
  {x | ∀ g' ∈ DualSet S X, g' ⬝ᵥ lineAt S g s x ≤ g ⬝ᵥ lineAt S g s x + tol}

/-- No value is changed by `_round_eps`. -/
def Unrounded (lp : (Fin r → ℝ) → Option (Fin r → ℝ)) (s : Fin r → ℝ) : Prop := ∀ f x, lp f = some x → roundEps (x ⬝ᵥ s) = x ⬝ᵥ s

/-! ## Lemmas -/

theorem maxObj_eq (S : Matrix (Fin r) (Fin r) ℝ) (g s : Fin r → ℝ) (c : ℝ) : maxObj S g s c = lineAt S g s c := by
  funext j
  simp only [maxObj, lineAt, dirVec]
  ring

theorem dot_line (S : Matrix (Fin r) (Fin r) ℝ) (g s h : Fin r → ℝ) (t : ℝ) : h ⬝ᵥ lineAt S g s t = h ⬝ᵥ s + t * (h ⬝ᵥ dirVec S g) := by
  simp only [dotProduct, lineAt, mul_sum, ← sum_add_distrib]
  exact sum_congr rfl fun i _ => by ring

/-- The data of one search: correct solver, residual orthogonal to the multipliers. -/
structure Ctx (lp : (Fin r → ℝ) → Option (Fin r → ℝ)) (S : Matrix (Fin r) (Fin r) ℝ) (X : Matrix (Fin r) (Fin k) ℝ) (g s : Fin r → ℝ) : Prop where
  ok : MaxOk lp S X
  mem : g ∈ DualSet S X
  dir : g ⬝ᵥ dirVec S g = 1
  res : g ⬝ᵥ s = 0
  exact : Unrounded lp s

variable {lp : (Fin r → ℝ) → Option (Fin r → ℝ)} {S : Matrix (Fin r) (Fin r) ℝ} {X : Matrix (Fin r) (Fin k) ℝ} {g s : Fin r → ℝ}

theorem Ctx.self (h : Ctx lp S X g s) (c : ℝ) : g ⬝ᵥ lineAt S g s c = c := by rw [dot_line, h.dir, h.res]; ring

theorem Ctx.mem_stay (h : Ctx lp S X g s) (c : ℝ) : c ∈ Stay S X g s ↔ ∀ x ∈ DualSet S X, x ⬝ᵥ s + c * (x ⬝ᵥ dirVec S g) ≤ c := by
  constructor
  · intro hc x hx
    have := hc.2 x hx
    rwa [h.self, dot_line] at this
  · intro hc
    refine ⟨h.mem, fun x hx => ?_⟩
    rw [h.self, dot_line]
    exact hc x hx

/-- The check: it succeeds; it accepts exactly the nearly optimal values; the maximiser attains the excess. -/
theorem Ctx.check (h : Ctx lp S X g s) (c : ℝ) : ∃ x, lp (maxObj S g s c) = some x ∧ x ∈ DualSet S X ∧
    checkSol lp S g s c = (some x, decide (c ∈ NearStay dualTol S X g s)) ∧
    (c ∉ NearStay dualTol S X g s → c + dualTol < x ⬝ᵥ s + c * (x ⬝ᵥ dirVec S g)) := by
  obtain ⟨x, hx, hopt⟩ := h.ok (maxObj S g s c)
  have hge : c ≤ x ⬝ᵥ maxObj S g s c := by
    have := hopt.2 g h.mem
    rwa [maxObj_eq, h.self, ← maxObj_eq] at this
  have hiff : |c - x ⬝ᵥ maxObj S g s c| ≤ dualTol ↔ c ∈ NearStay dualTol S X g s := by
    rw [abs_of_nonpos (by linarith)]
    constructor
    · intro hle g' hg'
      have := hopt.2 g' hg'
      rw [h.self, ← maxObj_eq]
      linarith
    · intro hc
      have := hc x hopt.1
      rw [h.self, ← maxObj_eq] at this
      linarith
  refine ⟨x, hx, hopt.1, ?_, ?_⟩
  · unfold checkSol
    rw [hx]
    simp only [hiff]
  · intro hc
    rw [← hiff, abs_of_nonpos (by linarith), maxObj_eq, dot_line] at hc
    linarith

theorem Ctx.stay_near (h : Ctx lp S X g s) {c : ℝ} (hc : c ∈ Stay S X g s) : c ∈ NearStay dualTol S X g s := by
  intro x hx
  have := hc.2 x hx
  have h0 : (0 : ℝ) < dualTol := by norm_num [dualTol]
  linarith

theorem dualTol_pos : 0 < dualTol := by norm_num [dualTol]

theorem Ctx.between (_ : Ctx lp S X g s) {a b x : ℝ} (ha : a ∈ Stay S X g s) (hb : b ∈ Stay S X g s) (h1 : a ≤ x) (h2 : x ≤ b) : x ∈ Stay S X g s :=
  optLine_between S X s g a b x ha hb h1 h2

/-- A shortcut step from above: it stays above the exact end and does not move up. -/
theorem Ctx.newton_up (h : Ctx lp S X g s) {eta c : ℝ} (heta : eta ∈ Stay S X g s) (hc : ∀ t ∈ Stay S X g s, t ≤ c)
    (x : Fin r → ℝ) (hx : x ∈ DualSet S X) (hlp : lp (maxObj S g s c) = some x) (hex : c + dualTol < x ⬝ᵥ s + c * (x ⬝ᵥ dirVec S g)) :
    ∃ m, newton S g s x = some m ∧ (∀ t ∈ Stay S X g s, t ≤ m) ∧ m ≤ c := by
  have h0 := dualTol_pos
  have hq : 1 < x ⬝ᵥ dirVec S g := by
    have e := (h.mem_stay eta).1 heta x hx
    have hec := hc eta heta
    by_contra hle
    push Not at hle
    nlinarith [mul_nonneg (sub_nonneg.2 hec) (sub_nonneg.2 hle)]
  have hneg : 1 - x ⬝ᵥ dirVec S g < 0 := by linarith
  refine ⟨x ⬝ᵥ s / (1 - x ⬝ᵥ dirVec S g), ?_, ?_, ?_⟩
  · unfold newton
    rw [if_neg hneg.ne, h.exact _ x hlp]
  · intro t ht
    have e := (h.mem_stay t).1 ht x hx
    rw [le_div_iff_of_neg hneg]
    nlinarith
  · rw [div_le_iff_of_neg hneg]
    nlinarith

/-- A shortcut step from below. -/
theorem Ctx.newton_lo (h : Ctx lp S X g s) {eta c : ℝ} (heta : eta ∈ Stay S X g s) (hc : ∀ t ∈ Stay S X g s, c ≤ t)
    (x : Fin r → ℝ) (hx : x ∈ DualSet S X) (hlp : lp (maxObj S g s c) = some x) (hex : c + dualTol < x ⬝ᵥ s + c * (x ⬝ᵥ dirVec S g)) :
    ∃ m, newton S g s x = some m ∧ (∀ t ∈ Stay S X g s, m ≤ t) ∧ c ≤ m := by
  have h0 := dualTol_pos
  have hq : x ⬝ᵥ dirVec S g < 1 := by
    have e := (h.mem_stay eta).1 heta x hx
    have hec := hc eta heta
    by_contra hle
    push Not at hle
    nlinarith [mul_nonneg (sub_nonneg.2 hec) (sub_nonneg.2 hle)]
  have hpos : 0 < 1 - x ⬝ᵥ dirVec S g := by linarith
  refine ⟨x ⬝ᵥ s / (1 - x ⬝ᵥ dirVec S g), ?_, ?_, ?_⟩
  · unfold newton
    rw [if_neg hpos.ne', h.exact _ x hlp]
  · intro t ht
    have e := (h.mem_stay t).1 ht x hx
    rw [div_le_iff₀ hpos]
    nlinarith
  · rw [le_div_iff₀ hpos]
    nlinarith

theorem Ctx.not_up (h : Ctx lp S X g s) {eta c : ℝ} (heta : eta ∈ Stay S X g s) (hle : eta ≤ c) (hc : c ∉ NearStay dualTol S X g s) :
    ∀ t ∈ Stay S X g s, t ≤ c := by
  intro t ht
  by_contra hlt
  push Not at hlt
  exact hc (h.stay_near (h.between heta ht hle hlt.le))

theorem Ctx.not_lo (h : Ctx lp S X g s) {eta c : ℝ} (heta : eta ∈ Stay S X g s) (hle : c ≤ eta) (hc : c ∉ NearStay dualTol S X g s) :
    ∀ t ∈ Stay S X g s, c ≤ t := by
  intro t ht
  by_contra hlt
  push Not at hlt
  exact hc (h.stay_near (h.between ht heta hlt.le hle))

theorem Ctx.shortcut_up (h : Ctx lp S X g s) {eta : ℝ} (heta : eta ∈ Stay S X g s) (n : ℕ) : ∀ (mid : ℝ) (iters : ℕ),
    (∀ t ∈ Stay S X g s, t ≤ mid) → ∃ m j, shortcut lp S g s n mid iters = some (m, j) ∧ j ≤ iters + n ∧ (∀ t ∈ Stay S X g s, t ≤ m) ∧ m ≤ mid := by
  induction n with
  | zero => intro mid iters hm; exact ⟨mid, iters, rfl, by omega, hm, le_rfl⟩
  | succ n ih =>
    intro mid iters hm
    obtain ⟨x, hlp, hx, hck, hex⟩ := h.check mid
    unfold shortcut
    rw [hck]
    by_cases hc : mid ∈ NearStay dualTol S X g s
    · rw [decide_eq_true hc]
      exact ⟨mid, iters, rfl, by omega, hm, le_rfl⟩
    · rw [decide_eq_false hc]
      obtain ⟨m, hn, hms, hmc⟩ := h.newton_up heta hm x hx hlp (hex hc)
      obtain ⟨m', j, e, hj, h1, h2⟩ := ih m (iters + 1) hms
      refine ⟨m', j, ?_, by omega, h1, h2.trans hmc⟩
      show (newton S g s x).bind _ = _
      rw [hn]
      exact e

theorem Ctx.shortcut_lo (h : Ctx lp S X g s) {eta : ℝ} (heta : eta ∈ Stay S X g s) (n : ℕ) : ∀ (mid : ℝ) (iters : ℕ),
    (∀ t ∈ Stay S X g s, mid ≤ t) → ∃ m j, shortcut lp S g s n mid iters = some (m, j) ∧ j ≤ iters + n ∧ (∀ t ∈ Stay S X g s, m ≤ t) ∧ mid ≤ m := by
  induction n with
  | zero => intro mid iters hm; exact ⟨mid, iters, rfl, by omega, hm, le_rfl⟩
  | succ n ih =>
    intro mid iters hm
    obtain ⟨x, hlp, hx, hck, hex⟩ := h.check mid
    unfold shortcut
    rw [hck]
    by_cases hc : mid ∈ NearStay dualTol S X g s
    · rw [decide_eq_true hc]
      exact ⟨mid, iters, rfl, by omega, hm, le_rfl⟩
    · rw [decide_eq_false hc]
      obtain ⟨m, hn, hms, hmc⟩ := h.newton_lo heta hm x hx hlp (hex hc)
      obtain ⟨m', j, e, hj, h1, h2⟩ := ih m (iters + 1) hms
      refine ⟨m', j, ?_, by omega, h1, hmc.trans h2⟩
      show (newton S g s x).bind _ = _
      rw [hn]
      exact e

/-- Bisection: the result is within the tolerance of an accepted value below it and of an upper bound of the exact set. -/
theorem bisectUp_spec (isSol : ℝ → Bool) (I : Set ℝ) (eta : ℝ) (hn : ∀ c, eta ≤ c → isSol c = false → ∀ t ∈ I, t ≤ c) (n : ℕ) :
    ∀ low high mid diff : ℝ, eta ≤ low → low ≤ mid → mid ≤ high → isSol low = true → (∀ t ∈ I, t ≤ high) → high - low ≤ dualTol * 2 ^ n →
      (diff ≤ dualTol → high - low ≤ dualTol) →
      low ≤ bisectUp isSol n low high mid diff ∧ (∀ t ∈ I, t ≤ bisectUp isSol n low high mid diff + dualTol) ∧
      ∃ c, isSol c = true ∧ c ≤ bisectUp isSol n low high mid diff ∧ bisectUp isSol n low high mid diff ≤ c + dualTol := by
  induction n with
  | zero =>
    intro low high mid diff he h1 h2 hs hI hg hd
    rw [pow_zero, mul_one] at hg
    refine ⟨h1, fun t ht => ?_, low, hs, h1, ?_⟩
    · have := hI t ht
      show t ≤ mid + dualTol
      linarith
    · show mid ≤ low + dualTol
      linarith
  | succ n ih =>
    intro low high mid diff he h1 h2 hs hI hg hd
    rw [bisectUp]
    by_cases hdf : dualTol < diff
    · rw [if_pos hdf]
      have hp : dualTol * 2 ^ (n + 1) = 2 * (dualTol * 2 ^ n) := by ring
      cases hm : isSol ((high + low) / 2) with
      | true =>
        rw [if_pos rfl]
        have i := ih _ _ _ _ (by linarith : eta ≤ (high + low) / 2) le_rfl (by linarith : (high + low) / 2 ≤ high) hm hI (by linarith) fun h => h
        exact ⟨le_trans (by linarith) i.1, i.2⟩
      | false =>
        rw [if_neg (by decide)]
        exact ih _ _ _ _ he (by linarith) le_rfl hs (hn _ (by linarith) hm) (by linarith) fun h => h
    · rw [if_neg hdf]
      have := hd (not_lt.1 hdf)
      exact ⟨h1, fun t ht => by have := hI t ht; linarith, low, hs, h1, by linarith⟩

theorem bisectLo_spec (isSol : ℝ → Bool) (I : Set ℝ) (eta : ℝ) (hn : ∀ c, c ≤ eta → isSol c = false → ∀ t ∈ I, c ≤ t) (n : ℕ) :
    ∀ low high mid diff : ℝ, high ≤ eta → low ≤ mid → mid ≤ high → isSol high = true → (∀ t ∈ I, low ≤ t) → high - low ≤ dualTol * 2 ^ n →
      (diff ≤ dualTol → high - low ≤ dualTol) →
      bisectLo isSol n low high mid diff ≤ high ∧ (∀ t ∈ I, bisectLo isSol n low high mid diff - dualTol ≤ t) ∧
      ∃ c, isSol c = true ∧ bisectLo isSol n low high mid diff ≤ c ∧ c - dualTol ≤ bisectLo isSol n low high mid diff := by
  induction n with
  | zero =>
    intro low high mid diff he h1 h2 hs hI hg hd
    rw [pow_zero, mul_one] at hg
    refine ⟨h2, fun t ht => ?_, high, hs, h2, ?_⟩
    · have := hI t ht
      show mid - dualTol ≤ t
      linarith
    · show high - dualTol ≤ mid
      linarith
  | succ n ih =>
    intro low high mid diff he h1 h2 hs hI hg hd
    rw [bisectLo]
    by_cases hdf : dualTol < diff
    · rw [if_pos hdf]
      have hp : dualTol * 2 ^ (n + 1) = 2 * (dualTol * 2 ^ n) := by ring
      cases hm : isSol ((low + high) / 2) with
      | true =>
        rw [if_pos rfl]
        have i := ih _ _ _ _ (by linarith : (low + high) / 2 ≤ eta) (by linarith : low ≤ (low + high) / 2) le_rfl hm hI (by linarith) fun h => h
        exact ⟨i.1.trans (by linarith), i.2⟩
      | false =>
        rw [if_neg (by decide)]
        have i := ih _ _ _ _ he le_rfl (by linarith : (low + high) / 2 ≤ high) hs (hn _ (by linarith) hm) (by linarith) fun h => h
        exact ⟨i.1, i.2⟩
    · rw [if_neg hdf]
      have := hd (not_lt.1 hdf)
      exact ⟨h2, fun t ht => by have := hI t ht; linarith, high, hs, h2, by linarith⟩

theorem floatMax_ge : 128 ≤ floatMax := by
  unfold floatMax
  calc (128 : ℝ) = 2 ^ 7 := by norm_num
    _ ≤ 2 ^ 1024 := pow_le_pow_right₀ (by norm_num) (by norm_num)

theorem gap_bound (m n : ℕ) (x : ℝ) (hx : x ≤ 64 * floatMax) (hm : m ≤ 10) (hn : n = 10000 - m) : x ≤ dualTol * 2 ^ n := by
  have h1 : (1 : ℝ) ≤ dualTol * 2 ^ 20 := by norm_num [dualTol]
  have h2 : 64 * floatMax ≤ 2 ^ 1030 := by
    unfold floatMax
    rw [show (1030 : ℕ) = 6 + 1024 from rfl, pow_add _ 6 1024]
    exact le_of_eq (by congr 1; norm_num)
  have h3 : (2 : ℝ) ^ 20 * 2 ^ 1030 ≤ 2 ^ n := by
    rw [← pow_add]
    exact pow_le_pow_right₀ (by norm_num) (by omega)
  have h4 := mul_le_mul_of_nonneg_left h3 dualTol_pos.le
  have h5 : (0 : ℝ) < 2 ^ 1030 := pow_pos (by norm_num) _
  clear h3
  generalize (2 : ℝ) ^ 1030 = B at *
  generalize (2 : ℝ) ^ n = N at *
  nlinarith

theorem Ctx.search_up (h : Ctx lp S X g s) {eta : ℝ} (heta : eta ∈ Stay S X g s)
    (hgap : max 100 (eta + 20 * Real.sqrt (g ⬝ᵥ (S *ᵥ g))) - eta ≤ 64 * floatMax) :
    ∃ b, searchUp lp S g s eta = some b ∧
      ((b = Bnd.infinite ∧ max 100 (eta + 20 * Real.sqrt (g ⬝ᵥ (S *ᵥ g))) ∈ NearStay dualTol S X g s) ∨
        ∃ v, b = Bnd.fin v ∧ eta ≤ v ∧ (∀ t ∈ Stay S X g s, t ≤ v + dualTol) ∧ ∃ c ∈ NearStay dualTol S X g s, c ≤ v ∧ v ≤ c + dualTol) := by
  obtain ⟨hi, hhi⟩ : ∃ l, l = max 100 (eta + 20 * Real.sqrt (g ⬝ᵥ (S *ᵥ g))) := ⟨_, rfl⟩
  unfold searchUp
  rw [← hhi] at hgap ⊢
  dsimp only
  have hle : eta ≤ hi := by
    rw [hhi]
    exact le_max_of_le_right (by have := Real.sqrt_nonneg (g ⬝ᵥ (S *ᵥ g)); linarith)
  obtain ⟨x, hlp, hx, hck, hex⟩ := h.check hi
  rw [hck]
  dsimp only
  by_cases hc : hi ∈ NearStay dualTol S X g s
  · rw [if_pos (by simpa using hc)]
    exact ⟨_, rfl, Or.inl ⟨rfl, hc⟩⟩
  · rw [if_neg (by simpa using hc)]
    obtain ⟨m0, hm0, hs0, hle0⟩ := h.newton_up heta (h.not_up heta hle hc) x hx hlp (hex hc)
    obtain ⟨m, j, e, hj, hs1, hle1⟩ := h.shortcut_up heta 9 m0 1 hs0
    refine ⟨Bnd.fin (bisectUp (fun t => (checkSol lp S g s t).2) (10000 - j) eta m m (dualTol + 1)), ?_, Or.inr ⟨_, rfl, ?_⟩⟩
    · show (newton S g s x).bind _ = _
      rw [hm0]
      show (shortcut lp S g s 9 m0 1).map _ = _
      rw [e]
      rfl
    · have key : ∀ c, (checkSol lp S g s c).2 = decide (c ∈ NearStay dualTol S X g s) := by
        intro c
        obtain ⟨_, _, _, hk, _⟩ := h.check c
        rw [hk]
      have := bisectUp_spec (fun t => (checkSol lp S g s t).2) (Stay S X g s) eta
        (fun c hec hf => h.not_up heta hec (by rw [key] at hf; simpa using hf)) (10000 - j) eta m m (dualTol + 1) le_rfl (hs1 eta heta) le_rfl
        (by show (checkSol lp S g s eta).2 = true; rw [key]; simpa using h.stay_near heta) hs1
        (gap_bound j _ _ (by linarith) (by omega) rfl) (fun hh => by linarith)
      obtain ⟨h0, h1, c, hcs, h2, h3⟩ := this
      refine ⟨h0, h1, c, ?_, h2, h3⟩
      have hcs' : (checkSol lp S g s c).2 = true := hcs
      rw [key] at hcs'
      simpa using hcs'

theorem Ctx.search_lo (h : Ctx lp S X g s) {eta : ℝ} (heta : eta ∈ Stay S X g s)
    (hgap : eta - min (-100) (eta - 20 * Real.sqrt (g ⬝ᵥ (S *ᵥ g))) ≤ 64 * floatMax) :
    ∃ b, searchLo lp S g s eta = some b ∧
      ((b = Bnd.infinite ∧ min (-100) (eta - 20 * Real.sqrt (g ⬝ᵥ (S *ᵥ g))) ∈ NearStay dualTol S X g s) ∨
        ∃ v, b = Bnd.fin v ∧ v ≤ eta ∧ (∀ t ∈ Stay S X g s, v - dualTol ≤ t) ∧ ∃ c ∈ NearStay dualTol S X g s, v ≤ c ∧ c - dualTol ≤ v) := by
  obtain ⟨lo, hlo⟩ : ∃ l, l = min (-100) (eta - 20 * Real.sqrt (g ⬝ᵥ (S *ᵥ g))) := ⟨_, rfl⟩
  unfold searchLo
  rw [← hlo] at hgap ⊢
  dsimp only
  have hle : lo ≤ eta := by
    rw [hlo]
    exact min_le_of_right_le (by have := Real.sqrt_nonneg (g ⬝ᵥ (S *ᵥ g)); linarith)
  obtain ⟨x, hlp, hx, hck, hex⟩ := h.check lo
  rw [hck]
  dsimp only
  by_cases hc : lo ∈ NearStay dualTol S X g s
  · rw [if_pos (by simpa using hc)]
    exact ⟨_, rfl, Or.inl ⟨rfl, hc⟩⟩
  · rw [if_neg (by simpa using hc)]
    obtain ⟨m0, hm0, hs0, hle0⟩ := h.newton_lo heta (h.not_lo heta hle hc) x hx hlp (hex hc)
    obtain ⟨m, j, e, hj, hs1, hle1⟩ := h.shortcut_lo heta 9 m0 1 hs0
    refine ⟨Bnd.fin (bisectLo (fun t => (checkSol lp S g s t).2) (10000 - j) m eta m (dualTol + 1)), ?_, Or.inr ⟨_, rfl, ?_⟩⟩
    · show (newton S g s x).bind _ = _
      rw [hm0]
      show (shortcut lp S g s 9 m0 1).map _ = _
      rw [e]
      rfl
    · have key : ∀ c, (checkSol lp S g s c).2 = decide (c ∈ NearStay dualTol S X g s) := by
        intro c
        obtain ⟨_, _, _, hk, _⟩ := h.check c
        rw [hk]
      have := bisectLo_spec (fun t => (checkSol lp S g s t).2) (Stay S X g s) eta
        (fun c hec hf => h.not_lo heta hec (by rw [key] at hf; simpa using hf)) (10000 - j) m eta m (dualTol + 1) le_rfl le_rfl (hs1 eta heta)
        (by show (checkSol lp S g s eta).2 = true; rw [key]; simpa using h.stay_near heta) hs1
        (gap_bound j _ _ (by linarith) (by omega) rfl) (fun hh => by linarith)
      obtain ⟨h0, h1, c, hcs, h2, h3⟩ := this
      refine ⟨h0, h1, c, ?_, h2, h3⟩
      have hcs' : (checkSol lp S g s c).2 = true := hcs
      rw [key] at hcs'
      simpa using hcs'

/-! ## C237 -/

/-- What the returned truncation points mean; `I` is the exact set, `N` the set accepted with the tolerance, `lo0` and `hi0` the outermost
values tried. -/
structure Located (eta lo0 hi0 : ℝ) (I N : Set ℝ) (b : Bnd ℝ × Bnd ℝ) : Prop where
  inside : eta ∈ truncSet b.1 b.2
  upInf : b.2 = Bnd.infinite → hi0 ∈ N
  loInf : b.1 = Bnd.infinite → lo0 ∈ N
  up : ∀ v, b.2 = Bnd.fin v → (∀ t ∈ I, t ≤ v + 1 / 10 ^ 6) ∧ ∃ c ∈ N, c ≤ v ∧ v ≤ c + 1 / 10 ^ 6
  lo : ∀ v, b.1 = Bnd.fin v → (∀ t ∈ I, v - 1 / 10 ^ 6 ≤ t) ∧ ∃ c ∈ N, v ≤ c ∧ c - 1 / 10 ^ 6 ≤ v

/-- **C237.**  Whatever (finite) statistic, the search for the truncation points returns (no division by zero, and within the iteration
limit), the statistic lies between them, a finite truncation point is beyond the exact end of the conditioning set up to `1e-6` and within
`1e-6` of a value for which the multipliers are optimal up to `1e-6`, and it is infinite only if they are so 20 standard deviations away. -/
theorem C237_search (lp : (Fin r → ℝ) → Option (Fin r → ℝ)) (S : Matrix (Fin r) (Fin r) ℝ) (X : Matrix (Fin r) (Fin k) ℝ) (y g : Fin r → ℝ)
    (hlp : MaxOk lp S X) (hopt : OptAt S X y g) (hv : 0 < g ⬝ᵥ (S *ᵥ g)) (hr : Unrounded lp (resFin S g y))
    (heta : |g ⬝ᵥ y| ≤ floatMax) (hsd : Real.sqrt (g ⬝ᵥ (S *ᵥ g)) ≤ floatMax) :
    ∃ b, vloVupDual lp S (g ⬝ᵥ y) (resFin S g y) g = some b ∧
      Located (g ⬝ᵥ y) (min (-100) (g ⬝ᵥ y - 20 * Real.sqrt (g ⬝ᵥ (S *ᵥ g)))) (max 100 (g ⬝ᵥ y + 20 * Real.sqrt (g ⬝ᵥ (S *ᵥ g))))
        {x | OptAt S X (lineAt S g (resFin S g y) x) g} (NearStay (1 / 10 ^ 6) S X g (resFin S g y)) b := by
  have h : Ctx lp S X g (resFin S g y) := ⟨hlp, hopt.1, dot_dir S g hv, dot_res S g y hv, hr⟩
  have hst : g ⬝ᵥ y ∈ Stay S X g (resFin S g y) := by
    show OptAt S X (lineAt S g (resFin S g y) (g ⬝ᵥ y)) g
    rw [line_self]
    exact hopt
  obtain ⟨h1, h2⟩ := abs_le.1 heta
  have hbig := floatMax_ge
  have hs0 := Real.sqrt_nonneg (g ⬝ᵥ (S *ᵥ g))
  obtain ⟨up, eup, hup⟩ := h.search_up hst (by
    rcases max_choice 100 (g ⬝ᵥ y + 20 * Real.sqrt (g ⬝ᵥ (S *ᵥ g))) with e | e <;> rw [e] <;> linarith)
  obtain ⟨lo, elo, hlo⟩ := h.search_lo hst (by
    rcases min_choice (-100) (g ⬝ᵥ y - 20 * Real.sqrt (g ⬝ᵥ (S *ᵥ g))) with e | e <;> rw [e] <;> linarith)
  refine ⟨(lo, up), ?_, ?_⟩
  · unfold vloVupDual
    obtain ⟨_, _, _, hk, _⟩ := h.check (g ⬝ᵥ y)
    rw [hk, if_pos (by simpa using h.stay_near hst), eup, elo]
    rfl
  · refine ⟨⟨?_, ?_⟩, ?_, ?_, ?_, ?_⟩
    · rcases hlo with ⟨rfl, _⟩ | ⟨v, rfl, hle, _⟩
      · exact trivial
      · exact hle
    · rcases hup with ⟨rfl, _⟩ | ⟨v, rfl, hle, _⟩
      · exact trivial
      · exact hle
    · intro e
      rcases hup with ⟨_, hN⟩ | ⟨v, rfl, _⟩
      · exact hN
      · cases e
    · intro e
      rcases hlo with ⟨_, hN⟩ | ⟨v, rfl, _⟩
      · exact hN
      · cases e
    · intro v e
      rcases hup with ⟨rfl, _⟩ | ⟨w, rfl, _, hI, hN⟩
      · cases e
      · cases e
        exact ⟨hI, hN⟩
    · intro v e
      rcases hlo with ⟨rfl, _⟩ | ⟨w, rfl, _, hI, hN⟩
      · cases e
      · cases e
        exact ⟨hI, hN⟩

/-- **C237.**  How far a finite truncation point can be from the exact end `e`: at most `1e-6 + 1e-6 / κ` when the optimal value of the
program exceeds the statistic by at least `κ` times the distance past the end. -/
theorem C237_distance (S : Matrix (Fin r) (Fin r) ℝ) (X : Matrix (Fin r) (Fin k) ℝ) (g s : Fin r → ℝ) (eta lo0 hi0 : ℝ) (b : Bnd ℝ × Bnd ℝ)
    (hb : Located eta lo0 hi0 {x | OptAt S X (lineAt S g s x) g} (NearStay (1 / 10 ^ 6) S X g s) b) (κ e : ℝ) (hκ : 0 < κ)
    (he : OptAt S X (lineAt S g s e) g) :
    ((∀ c, e ≤ c → ∃ g' ∈ DualSet S X, g ⬝ᵥ lineAt S g s c + κ * (c - e) ≤ g' ⬝ᵥ lineAt S g s c) →
      ∀ v, b.2 = Bnd.fin v → |v - e| ≤ 1 / 10 ^ 6 + 1 / 10 ^ 6 / κ) ∧
    ((∀ c, c ≤ e → ∃ g' ∈ DualSet S X, g ⬝ᵥ lineAt S g s c + κ * (e - c) ≤ g' ⬝ᵥ lineAt S g s c) →
      ∀ v, b.1 = Bnd.fin v → |v - e| ≤ 1 / 10 ^ 6 + 1 / 10 ^ 6 / κ) := by
  have hd : (0 : ℝ) ≤ 1 / 10 ^ 6 / κ := by positivity
  constructor
  · intro hs v hv
    obtain ⟨h1, c, hc, h2, h3⟩ := hb.up v hv
    have h4 := h1 e he
    have h5 : c ≤ e + 1 / 10 ^ 6 / κ := by
      by_cases hce : e ≤ c
      · obtain ⟨g', hg', h6⟩ := hs c hce
        have := hc g' hg'
        have : κ * (c - e) ≤ 1 / 10 ^ 6 := by linarith
        rw [← sub_le_iff_le_add', le_div_iff₀ hκ]
        linarith
      · linarith
    rw [abs_le]
    exact ⟨by linarith, by linarith⟩
  · intro hs v hv
    obtain ⟨h1, c, hc, h2, h3⟩ := hb.lo v hv
    have h4 := h1 e he
    have h5 : e - 1 / 10 ^ 6 / κ ≤ c := by
      by_cases hce : c ≤ e
      · obtain ⟨g', hg', h6⟩ := hs c hce
        have := hc g' hg'
        have : κ * (e - c) ≤ 1 / 10 ^ 6 := by linarith
        rw [sub_le_comm, le_div_iff₀ hκ]
        linarith
      · linarith
    rw [abs_le]
    exact ⟨by linarith, by linarith⟩

/-! ### An instance -/

/-- Two moments with unit variances and correlation `ρ`. -/
def s2 (ρ : ℝ) : Matrix (Fin 2) (Fin 2) ℝ := !![1, ρ; ρ, 1]

/-- A nuisance parameter that does not matter (not full rank: the degenerate branch). -/
def x2 : Matrix (Fin 2) (Fin 1) ℝ := !![0; 0]

theorem mem_dual2 (ρ : ℝ) (g : Fin 2 → ℝ) : g ∈ DualSet (s2 ρ) x2 ↔ 0 ≤ g 0 ∧ 0 ≤ g 1 ∧ g 0 + g 1 = 1 := by
  simp [DualSet, sdVec, s2, x2, Fin.sum_univ_two, Fin.forall_fin_two, and_assoc]

theorem line2 (ρ a b c : ℝ) : lineAt (s2 ρ) ![1, 0] (resFin (s2 ρ) ![1, 0] ![a, b]) c = ![c, b - ρ * a + c * ρ] := by
  funext i
  fin_cases i <;> simp [lineAt, resFin, dirVec, s2, mulVec, dotProduct, Fin.sum_univ_two]

theorem opt2 (ρ a b c : ℝ) : OptAt (s2 ρ) x2 (lineAt (s2 ρ) ![1, 0] (resFin (s2 ρ) ![1, 0] ![a, b]) c) ![1, 0] ↔ b - ρ * a + c * ρ ≤ c := by
  rw [line2]
  unfold OptAt
  constructor
  · rintro ⟨_, h⟩
    have := h ![0, 1] ((mem_dual2 ρ _).2 (by simp))
    simpa [dotProduct, Fin.sum_univ_two] using this
  · intro h
    refine ⟨(mem_dual2 ρ _).2 (by simp), fun g hg => ?_⟩
    obtain ⟨h0, h1, h2⟩ := (mem_dual2 ρ g).1 hg
    simp only [dotProduct, Fin.sum_univ_two, Matrix.cons_val_zero, Matrix.cons_val_one]
    have : g 0 = 1 - g 1 := by linarith
    rw [this]
    nlinarith [mul_nonneg h1 (sub_nonneg.2 h)]

theorem near2 (tol ρ a b c : ℝ) (ht : 0 ≤ tol) :
    c ∈ NearStay tol (s2 ρ) x2 ![1, 0] (resFin (s2 ρ) ![1, 0] ![a, b]) ↔ b - ρ * a + c * ρ ≤ c + tol := by
  unfold NearStay
  rw [Set.mem_ofPred_eq, line2]
  constructor
  · intro h
    have := h ![0, 1] ((mem_dual2 ρ _).2 (by simp))
    simpa [dotProduct, Fin.sum_univ_two] using this
  · intro h g hg
    obtain ⟨h0, h1, h2⟩ := (mem_dual2 ρ g).1 hg
    simp only [dotProduct, Fin.sum_univ_two, Matrix.cons_val_zero, Matrix.cons_val_one]
    have h3 : g 0 = 1 - g 1 := by linarith
    have h4 : g 1 ≤ 1 := by linarith
    rw [h3]
    nlinarith [mul_nonneg h1 (sub_nonneg.2 h), mul_nonneg ht (sub_nonneg.2 h4)]

theorem maxOk_exists (ρ : ℝ) : ∃ lp, MaxOk lp (s2 ρ) x2 ∧ ∀ f x, lp f = some x → x = ![1, 0] ∨ x = ![0, 1] := by
  refine ⟨fun f => if f 1 ≤ f 0 then some ![1, 0] else some ![0, 1], fun f => ?_, fun f x => ?_⟩
  · by_cases h : f 1 ≤ f 0
    · refine ⟨![1, 0], if_pos h, (mem_dual2 ρ _).2 (by simp), fun g hg => ?_⟩
      obtain ⟨h0, h1, h2⟩ := (mem_dual2 ρ g).1 hg
      simp only [dotProduct, Fin.sum_univ_two, Matrix.cons_val_zero, Matrix.cons_val_one]
      have : g 0 = 1 - g 1 := by linarith
      rw [this]
      nlinarith [mul_nonneg h1 (sub_nonneg.2 h)]
    · refine ⟨![0, 1], if_neg h, (mem_dual2 ρ _).2 (by simp), fun g hg => ?_⟩
      obtain ⟨h0, h1, h2⟩ := (mem_dual2 ρ g).1 hg
      simp only [dotProduct, Fin.sum_univ_two, Matrix.cons_val_zero, Matrix.cons_val_one]
      push Not at h
      have : g 1 = 1 - g 0 := by linarith
      rw [this]
      nlinarith [mul_nonneg h0 (sub_nonneg.2 h.le)]
  · dsimp only
    split_ifs <;> intro h <;> cases h <;> simp

/-- **C237.**  If the multipliers are not optimal up to `1e-6` at the statistic itself (some feasible multipliers do better by more than that),
the interval starts at the statistic and has no upper end. -/
theorem C237_not_optimal (lp : (Fin r → ℝ) → Option (Fin r → ℝ)) (S : Matrix (Fin r) (Fin r) ℝ) (X : Matrix (Fin r) (Fin k) ℝ) (eta : ℝ)
    (s g g' : Fin r → ℝ) (hlp : MaxOk lp S X) (hg' : g' ∈ DualSet S X) (hbetter : eta + 1 / 10 ^ 6 < g' ⬝ᵥ lineAt S g s eta) :
    vloVupDual lp S eta s g = some (Bnd.fin eta, Bnd.infinite) := by
  obtain ⟨x, hx, hopt⟩ := hlp (maxObj S g s eta)
  have hge := hopt.2 g' hg'
  rw [← maxObj_eq] at hbetter
  unfold vloVupDual
  rw [if_neg]
  unfold checkSol
  rw [hx]
  simp only [decide_eq_true_eq, not_le]
  have : dualTol = 1 / 10 ^ 6 := rfl
  rw [this, lt_abs]
  right
  linarith

/-- Moments 0 and 5: at the statistic 0 the weight on the first is not optimal. -/
example : ∃ lp, MaxOk lp (s2 0) x2 ∧
    vloVupDual lp (s2 0) 0 (resFin (s2 0) ![1, 0] ![0, 5]) ![1, 0] = some (Bnd.fin 0, Bnd.infinite) := by
  obtain ⟨lp, hlp, _⟩ := maxOk_exists 0
  refine ⟨lp, hlp, C237_not_optimal lp _ _ 0 _ _ ![0, 1] hlp ((mem_dual2 0 _).2 (by simp)) ?_⟩
  rw [line2]
  simp [dotProduct, Fin.sum_univ_two]
  norm_num

/-- **C237, violated.**  The tolerance is on the objective, not on the truncation point: with two moments of correlation `1 - 1e-9` the
statistic 1 is truncated at 0.9, and the search returns no truncation at all. -/
theorem C237_tolerance_violated (lp : (Fin 2 → ℝ) → Option (Fin 2 → ℝ)) (ρ : ℝ) (hρ : ρ = 1 - 1 / 10 ^ 9) (hlp : MaxOk lp (s2 ρ) x2) :
    {c | OptAt (s2 ρ) x2 (lineAt (s2 ρ) ![1, 0] (resFin (s2 ρ) ![1, 0] ![1, 1 - 1 / 10 ^ 10]) c) ![1, 0]} = Set.Ici (9 / 10) ∧
    vloVupDual lp (s2 ρ) 1 (resFin (s2 ρ) ![1, 0] ![1, 1 - 1 / 10 ^ 10]) ![1, 0] = some (Bnd.infinite, Bnd.infinite) := by
  have hq : ![1, 0] ⬝ᵥ (s2 ρ *ᵥ ![1, 0]) = 1 := by simp [s2, mulVec, dotProduct, Fin.sum_univ_two]
  have hc : ∀ c, (checkSol lp (s2 ρ) ![1, 0] (resFin (s2 ρ) ![1, 0] ![1, 1 - 1 / 10 ^ 10]) c).2 =
      decide (c ∈ NearStay dualTol (s2 ρ) x2 ![1, 0] (resFin (s2 ρ) ![1, 0] ![1, 1 - 1 / 10 ^ 10])) := by
    intro c
    obtain ⟨x, hx, hopt⟩ := hlp (maxObj (s2 ρ) ![1, 0] (resFin (s2 ρ) ![1, 0] ![1, 1 - 1 / 10 ^ 10]) c)
    have hself : ![1, 0] ⬝ᵥ lineAt (s2 ρ) ![1, 0] (resFin (s2 ρ) ![1, 0] ![1, 1 - 1 / 10 ^ 10]) c = c := by
      rw [line2]
      simp [dotProduct, Fin.sum_univ_two]
    have hge := hopt.2 ![1, 0] ((mem_dual2 ρ _).2 (by simp))
    rw [maxObj_eq, hself, ← maxObj_eq] at hge
    unfold checkSol
    rw [hx]
    have hiff : |c - x ⬝ᵥ maxObj (s2 ρ) ![1, 0] (resFin (s2 ρ) ![1, 0] ![1, 1 - 1 / 10 ^ 10]) c| ≤ dualTol ↔
        c ∈ NearStay dualTol (s2 ρ) x2 ![1, 0] (resFin (s2 ρ) ![1, 0] ![1, 1 - 1 / 10 ^ 10]) := by
      rw [abs_of_nonpos (by linarith)]
      constructor
      · intro hle g' hg'
        have := hopt.2 g' hg'
        rw [hself, ← maxObj_eq]
        linarith
      · intro hc
        have := hc x hopt.1
        rw [hself, ← maxObj_eq] at this
        linarith
    simp only [hiff]
  have hn : ∀ c, c = 1 ∨ c = -100 ∨ c = 100 → (checkSol lp (s2 ρ) ![1, 0] (resFin (s2 ρ) ![1, 0] ![1, 1 - 1 / 10 ^ 10]) c).2 = true := by
    intro c hcc
    rw [hc, decide_eq_true_eq, near2 _ _ _ _ _ dualTol_pos.le, hρ]
    rcases hcc with rfl | rfl | rfl <;> norm_num [dualTol]
  constructor
  · ext c
    rw [Set.mem_ofPred_eq, opt2, Set.mem_Ici, hρ]
    constructor
    · intro h
      norm_num at h
      linarith
    · intro h
      norm_num
      linarith
  · unfold vloVupDual searchUp searchLo
    rw [hq, Real.sqrt_one, if_pos (hn 1 (Or.inl rfl))]
    have e1 : max (100 : ℝ) (1 + 20 * 1) = 100 := by norm_num
    have e2 : min (-100 : ℝ) (1 - 20 * 1) = -100 := by norm_num
    rw [e1, e2]
    dsimp only
    rw [if_pos (hn 100 (Or.inr (Or.inr rfl))), if_pos (hn (-100) (Or.inr (Or.inl rfl)))]
    rfl

/-- Two independent moments, 2 and 1: the statistic is 2 and its exact lower truncation point 1. -/
example : ∃ lp b, MaxOk lp (s2 0) x2 ∧ vloVupDual lp (s2 0) (![1, 0] ⬝ᵥ ![2, 1]) (resFin (s2 0) ![1, 0] ![2, 1]) ![1, 0] = some b ∧
    (∀ v, b.1 = Bnd.fin v → |v - 1| ≤ 2 / 10 ^ 6) ∧ b.1 ≠ Bnd.infinite := by
  obtain ⟨lp, hlp, hcase⟩ := maxOk_exists 0
  have hopt : OptAt (s2 0) x2 ![2, 1] ![1, 0] := by
    have := (opt2 0 2 1 2).2 (by norm_num)
    rwa [line2, show ![(2 : ℝ), 1 - 0 * 2 + 2 * 0] = ![2, 1] by norm_num] at this
  have hq : ![1, 0] ⬝ᵥ (s2 0 *ᵥ ![1, 0]) = 1 := by simp [s2, mulVec, dotProduct, Fin.sum_univ_two]
  have hy : ![(1 : ℝ), 0] ⬝ᵥ ![2, 1] = 2 := by simp [dotProduct, Fin.sum_univ_two]
  have heps : floatEps ^ (3 / 4 : ℝ) ≤ 1 := Real.rpow_le_one (by norm_num [floatEps]) (by norm_num [floatEps]) (by norm_num)
  have hbig := floatMax_ge
  obtain ⟨b, hb, hloc⟩ := C237_search lp (s2 0) x2 ![2, 1] ![1, 0] hlp hopt (by rw [hq]; norm_num) (by
      intro f x hx
      unfold roundEps
      have : x ⬝ᵥ resFin (s2 0) ![1, 0] ![2, 1] = 0 ∨ x ⬝ᵥ resFin (s2 0) ![1, 0] ![2, 1] = 1 := by
        rcases hcase f x hx with rfl | rfl
        · left; simp [resFin, dirVec, s2, mulVec, dotProduct, Fin.sum_univ_two]
        · right; simp [resFin, dirVec, s2, mulVec, dotProduct, Fin.sum_univ_two]
      rcases this with e | e <;> rw [e]
      · split_ifs <;> rfl
      · rw [if_neg (by rw [abs_one]; exact not_lt.2 heps)])
    (by rw [hy, abs_of_pos (by norm_num)]; linarith) (by rw [hq, Real.sqrt_one]; linarith)
  refine ⟨lp, b, hlp, hb, ?_, ?_⟩
  · have := (C237_distance (s2 0) x2 ![1, 0] _ _ _ _ b hloc 1 1 one_pos ((opt2 0 2 1 1).2 (by norm_num))).2 (by
      intro c hc
      refine ⟨![0, 1], (mem_dual2 0 _).2 (by simp), ?_⟩
      rw [line2]
      simp [dotProduct, Fin.sum_univ_two])
    intro v hv
    exact (this v hv).trans (by norm_num)
  · intro hinf
    have := hloc.loInf hinf
    rw [hy, hq, Real.sqrt_one, near2 _ _ _ _ _ (by norm_num)] at this
    norm_num at this

end Verif.Honest.Dual
