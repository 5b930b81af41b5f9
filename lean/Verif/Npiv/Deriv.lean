import Verif.Npiv.Dim
import Mathlib.Tactic.FieldSimp
import Mathlib.Tactic.NormNum
import Mathlib.Algebra.BigOperators.Field
import Mathlib.Algebra.BigOperators.Fin
import Mathlib.Algebra.Polynomial.Derivation

/-!
# Derivatives of the sieve (C93) and evaluation outside the boundary (C94)
-/

set_option linter.unusedSectionVars false
set_option linter.unusedSimpArgs false

namespace Verif.Npiv

section
variable {R : Type} [CommRing R]

/-- Specification of "differentiate with respect to one variable": an additive operator `D` on
functions of the regressors, and the set `S` of functions that do not involve that variable, on
which `D` vanishes and over which it is linear.  (The derivative of any order is one.) -/
structure PartialDeriv (D : R →+ R) (S : Submonoid R) : Prop where
  zero : ∀ a ∈ S, D a = 0
  linear : ∀ a ∈ S, ∀ b, D (a * b) = a * D b

/-- The rows handed to the derivative matrix: levels and derivatives of each univariate basis, the
differentiated variable flagged. -/
def RowsOk (D : R →+ R) (S : Submonoid R) (rs : List (Bool × List R × List R)) : Prop :=
  ∀ r ∈ rs, (r.1 = true → r.2.2 = r.2.1.map D) ∧ (r.1 = false → ∀ a ∈ r.2.1, a ∈ S)

/-- The rows actually combined. -/
def pick (r : Bool × List R × List R) : List R := if r.1 then r.2.2 else r.2.1

/-- The level rows. -/
def lev (r : Bool × List R × List R) : List R := r.2.1

theorem interRow_mem {S : Submonoid R} (rs : List (List R)) (h : ∀ r ∈ rs, ∀ a ∈ r, a ∈ S) :
    ∀ a ∈ interRow rs, a ∈ S := by
  induction rs with
  | nil => intro a ha; simp [interRow] at ha; rw [ha]; exact S.one_mem
  | cons r t ih =>
    intro a ha
    simp only [interRow, List.mem_flatMap, List.mem_map] at ha
    obtain ⟨u, hu, v, hv, rfl⟩ := ha
    exact S.mul_mem (h r (by simp) u hu) (ih (fun r hr => h r (by simp [hr])) v hv)

theorem interRow_deriv {D : R →+ R} {S : Submonoid R} (hD : PartialDeriv D S)
    (cs : List (Bool × List R × List R)) (hok : RowsOk D S cs) (h1 : cs.countP (·.1) = 1) :
    interRow (cs.map pick) = (interRow (cs.map lev)).map D := by
  induction cs with
  | nil => simp at h1
  | cons r t ih =>
    have hr := hok r (by simp)
    have ht : RowsOk D S t := fun x hx => hok x (by simp [hx])
    obtain ⟨fl, lv, dr⟩ := r
    cases fl with
    | true =>
      have h0 : t.countP (·.1) = 0 := by simpa [List.countP_cons] using h1
      rw [List.countP_eq_zero] at h0
      have hpick : t.map pick = t.map lev := by
        apply List.map_congr_left
        intro x hx
        have := h0 x hx
        simp [pick, lev, this]
      have hS : ∀ a ∈ interRow (t.map lev), a ∈ S := by
        apply interRow_mem
        intro l hl a ha
        rw [List.mem_map] at hl
        obtain ⟨x, hx, rfl⟩ := hl
        exact (ht x hx).2 (by simpa using h0 x hx) a ha
      simp only [List.map_cons, interRow, hpick, List.map_flatMap, List.map_map]
      have e : pick (true, lv, dr) = lv.map D := hr.1 rfl
      rw [e, List.flatMap_map]
      apply List.flatMap_congr
      intro a _
      apply List.map_congr_left
      intro b hb
      simp only [Function.comp]
      rw [mul_comm a b, hD.linear b (hS b hb), mul_comm]
    | false =>
      have h0 : t.countP (·.1) = 1 := by simpa [List.countP_cons] using h1
      simp only [List.map_cons, interRow, ih ht h0, List.map_flatMap, List.map_map]
      have e : pick (false, lv, dr) = lv := rfl
      rw [e]
      apply List.flatMap_congr
      intro a ha
      apply List.map_congr_left
      intro b _
      simp only [Function.comp]
      exact (hD.linear a (hr.2 rfl a ha) b).symm

theorem foldl_kron_eq (rs : List (List R)) (r : List R) :
    rs.foldl kron r = interRow (r :: rs) := by
  induction rs generalizing r with
  | nil =>
    simp only [List.foldl_nil, interRow, List.map_cons, List.map_nil, mul_one]
    induction r with
    | nil => rfl
    | cons a t ih => simp
  | cons s t ih =>
    rw [List.foldl_cons, ih]
    simp only [interRow, kron, List.flatMap_assoc, List.flatMap_map, List.map_flatMap, List.map_map,
      Function.comp_def, mul_assoc]

theorem combos_sublist {α : Type} (k : ℕ) (l : List α) : ∀ c ∈ combos k l, c.Sublist l := by
  induction l generalizing k with
  | nil => cases k <;> simp [combos]
  | cons a t ih =>
    cases k with
    | zero => simp [combos]
    | succ k =>
      intro c hc
      simp only [combos, List.mem_append, List.mem_map] at hc
      rcases hc with ⟨d, hd, rfl⟩ | hc
      · exact (ih k d hd).cons_cons a
      · exact (ih (k + 1) c hc).cons a

theorem zipWith_flatMap {α β γ δ : Type} (f : β → γ → δ) (l : List α) (g : α → List β)
    (h : α → List γ) (hl : ∀ a ∈ l, (g a).length = (h a).length) :
    List.zipWith f (l.flatMap g) (l.flatMap h) = l.flatMap (fun a => List.zipWith f (g a) (h a)) := by
  induction l with
  | nil => rfl
  | cons a t ih =>
    simp only [List.flatMap_cons]
    rw [List.zipWith_append (hl a (by simp)), ih (fun b hb => hl b (by simp [hb]))]

theorem zipWith_keep (l : List R) (b : Bool) :
    List.zipWith (fun keep v => if keep then v else (0 : R)) (List.replicate l.length b) l
      = if b then l else List.replicate l.length 0 := by
  induction l with
  | nil => cases b <;> rfl
  | cons a t ih =>
    cases b <;> simp_all [List.replicate_succ]

theorem map_zero_of_mem {D : R →+ R} {S : Submonoid R} (hD : PartialDeriv D S) (l : List R)
    (h : ∀ a ∈ l, a ∈ S) : l.map D = List.replicate l.length 0 := by
  rw [List.eq_replicate_iff]
  refine ⟨by simp, ?_⟩
  intro b hb
  rw [List.mem_map] at hb
  obtain ⟨a, ha, rfl⟩ := hb
  exact hD.zero a (h a ha)

/-- One block of the masked glp row. -/
theorem glp_block {D : R →+ R} {S : Submonoid R} (hD : PartialDeriv D S)
    (c : List (Bool × List R × List R)) (hok : RowsOk D S c) (h1 : c.countP (·.1) ≤ 1)
    (hlen : ∀ r ∈ c, (pick r).length = (lev r).length) :
    List.zipWith (fun keep v => if keep then v else (0 : R))
      (List.replicate (c.map (fun r => (pick r).length)).prod (c.any (·.1)))
      (interRow (c.map pick)) = (interRow (c.map lev)).map D := by
  have hl : (c.map (fun r => (pick r).length)).prod = (interRow (c.map pick)).length := by
    rw [interRow_length, List.map_map]; rfl
  have hl2 : (interRow (c.map pick)).length = (interRow (c.map lev)).length := by
    rw [interRow_length, interRow_length, List.map_map, List.map_map]
    congr 1
    exact List.map_congr_left (fun r hr => hlen r hr)
  rw [hl, zipWith_keep]
  rcases Nat.lt_or_ge (c.countP (·.1)) 1 with h0 | h0
  · have h0' : c.countP (·.1) = 0 := by omega
    rw [List.countP_eq_zero] at h0'
    have hany : c.any (·.1) = false := by
      rw [List.any_eq_false]; exact h0'
    rw [hany]
    simp only [Bool.false_eq_true, if_false]
    rw [hl2, map_zero_of_mem hD]
    apply interRow_mem
    intro l hl a ha
    rw [List.mem_map] at hl
    obtain ⟨x, hx, rfl⟩ := hl
    exact (hok x hx).2 (by simpa using h0' x hx) a ha
  · have h1' : c.countP (·.1) = 1 := by omega
    have hany : c.any (·.1) = true := by
      rw [List.any_eq_true]
      have : 0 < c.countP (·.1) := by omega
      rw [List.countP_pos_iff] at this
      exact this
    rw [hany]
    simp only [if_true]
    exact interRow_deriv hD c hok h1'

theorem rows_len {D : R →+ R} {S : Submonoid R} {rs : List (Bool × List R × List R)}
    (hok : RowsOk D S rs) : ∀ r ∈ rs, (pick r).length = (lev r).length := by
  intro r hr
  unfold pick lev
  split
  · rename_i h; rw [(hok r hr).1 h]; simp
  · rfl

/-- **C93 (tensor and glp).** Differentiate a sieve with respect to one of its variables: if the
univariate row of that variable holds the derivatives of its basis functions and the other rows do
not involve it, every column of the derivative matrix is the partial derivative of the
corresponding column of the level matrix. -/
theorem C93_tensor_glp (k : Kind) (hk : k ≠ .additive) {D : R →+ R} {S : Submonoid R}
    (hD : PartialDeriv D S) (rs : List (Bool × List R × List R)) (hok : RowsOk D S rs)
    (h1 : rs.countP (·.1) = 1) :
    derivRow k rs = (combineRow k (rs.map lev)).map D := by
  have hlen := rows_len hok
  match rs, h1 with
  | [r], h1 =>
    have hr : r.1 = true := by
      by_contra hc
      simp [List.countP_cons, hc] at h1
    simp only [derivRow, combineRow, List.map_cons, List.map_nil, hr, if_true]
    exact (hok r (by simp)).1 hr
  | r :: s :: t, h1 =>
    cases k with
    | additive => exact absurd rfl hk
    | tensor =>
      show tensorRow ((r :: s :: t).map pick) = (tensorRow ((r :: s :: t).map lev)).map D
      have e : ∀ f : (Bool × List R × List R) → List R,
          tensorRow ((r :: s :: t).map f) = interRow ((r :: s :: t).map f) := by
        intro f
        simp only [List.map_cons, tensorRow]
        exact foldl_kron_eq _ _
      rw [e, e]
      exact interRow_deriv hD _ hok h1
    | glp =>
      generalize hrs : r :: s :: t = rs at *
      have hrow : derivRow .glp rs = if rs.any (·.1) then
          List.zipWith (fun keep v => if keep then v else 0)
            (glpMask (rs.map (fun r => ((pick r).length, r.1)))) (glpRow (rs.map pick))
          else glpRow (rs.map pick) := by rw [← hrs]; rfl
      have hcomb : combineRow .glp (rs.map lev) = glpRow (rs.map lev) := by rw [← hrs]; rfl
      have hany : rs.any (·.1) = true := by
        rw [List.any_eq_true]
        have : 0 < rs.countP (·.1) := by omega
        rw [List.countP_pos_iff] at this
        exact this
      rw [hrow, hcomb, hany]
      simp only [if_true]
      unfold glpMask glpRow
      simp only [List.length_map, List.flatMap_map, combos_map, List.map_append, List.map_flatMap,
        List.any_map, List.map_map, Function.comp_def]
      rw [List.zipWith_append]
      · congr 1
        · rw [← List.flatMap_def, ← List.flatMap_def, zipWith_flatMap]
          · rw [List.map_flatMap]
            apply List.flatMap_congr
            intro x hx
            rw [zipWith_keep]
            have hx' := hok x hx
            rcases hb : x.1 with _ | _
            · simp only [Bool.false_eq_true, if_false]
              rw [hlen x hx, map_zero_of_mem hD (lev x) (hx'.2 hb)]
            · simp only [if_true]
              show pick x = (lev x).map D
              unfold pick
              rw [hb]
              exact hx'.1 hb
          · intro x _; simp
        · rw [zipWith_flatMap]
          · apply List.flatMap_congr
            intro i _
            rw [zipWith_flatMap]
            · apply List.flatMap_congr
              intro c hc
              have hsub := combos_sublist _ _ c hc
              exact glp_block hD c (fun x hx => hok x (hsub.subset hx))
                (le_trans (hsub.countP_le) h1.le) (fun x hx => hlen x (hsub.subset hx))
            · intro c _
              rw [List.length_replicate, interRow_length, List.map_map]
              rfl
          · intro i _
            rw [List.length_flatMap, List.length_flatMap]
            congr 1
            apply List.map_congr_left
            intro c _
            rw [List.length_replicate, interRow_length, List.map_map]
            rfl
      · rw [List.length_flatMap, List.length_flatten, List.map_map]
        congr 1
        apply List.map_congr_left
        intro x _
        simp

/-- **C93 (additive, one variable).** With a single regressor the additive derivative is right. -/
theorem C93_additive_single {D : R →+ R} {S : Submonoid R}
    (r : Bool × List R × List R) (hok : RowsOk D S [r]) (h1 : r.1 = true) :
    derivRow .additive [r] = (combineRow .additive ([r].map lev)).map D := by
  simp only [derivRow, combineRow, List.map_cons, List.map_nil, h1, if_true]
  exact (hok r (by simp)).1 h1

/-- **C93 (violated for additive).** With two or more regressors, the additive derivative matrix
keeps the levels of the other variables: it differs from the derivative of the level matrix as soon
as some basis function of another variable is not zero. -/
theorem C93_additive_violated {D : R →+ R} {S : Submonoid R} (hD : PartialDeriv D S)
    (rs : List (Bool × List R × List R)) (hok : RowsOk D S rs) (h2 : 2 ≤ rs.length)
    (hnz : ∃ r ∈ rs, r.1 = false ∧ ∃ a ∈ r.2.1, a ≠ 0) :
    derivRow .additive rs = (rs.map pick).flatten ∧
    derivRow .additive rs ≠ (combineRow .additive (rs.map lev)).map D := by
  have hlen := rows_len hok
  match rs, h2 with
  | r :: s :: t, _ =>
    generalize hrs : r :: s :: t = rs at *
    have e1 : derivRow .additive rs = (rs.map pick).flatten := by rw [← hrs]; rfl
    have e2 : combineRow .additive (rs.map lev) = (rs.map lev).flatten := by rw [← hrs]; rfl
    refine ⟨e1, ?_⟩
    rw [e1, e2]
    intro heq
    obtain ⟨x, hx, hf, a, ha, hane⟩ := hnz
    -- compare block by block
    have hblock : ∀ l : List (Bool × List R × List R), (∀ y ∈ l, (pick y).length = (lev y).length) →
        (l.map pick).flatten = ((l.map lev).flatten).map D → ∀ y ∈ l, pick y = (lev y).map D := by
      intro l
      induction l with
      | nil => intro _ _ y hy; simp at hy
      | cons z w ih =>
        intro hl he y hy
        simp only [List.map_cons, List.flatten_cons, List.map_append] at he
        have := List.append_inj he (by simp [hl z (by simp)])
        rcases List.mem_cons.1 hy with rfl | hy
        · exact this.1
        · exact ih (fun y hy => hl y (by simp [hy])) this.2 y hy
    have := hblock rs hlen heq x hx
    have hp : pick x = lev x := by simp [pick, lev, hf]
    rw [hp, map_zero_of_mem hD (lev x) ((hok x hx).2 hf)] at this
    have ha' : a ∈ lev x := ha
    rw [this] at ha'
    exact hane (List.eq_of_mem_replicate ha')

end

/-! A concrete case: polynomials in `X` over polynomials in the other variable. -/

/-- Differentiation with respect to `X`; the constants are the functions of the other variables. -/
noncomputable def dX : Polynomial ℚ →+ Polynomial ℚ := (Polynomial.derivative).toAddMonoidHom

theorem dX_isPartialDeriv : PartialDeriv dX (MonoidHom.mrange (Polynomial.C : ℚ →+* Polynomial ℚ).toMonoidHom) := by
  constructor
  · rintro a ⟨c, rfl⟩
    simp [dX]
  · rintro a ⟨c, rfl⟩ b
    simp [dX]

/-- Rows `(X, X²)` and `(2, 3)`, differentiated in the first. -/
example : ∃ rs : List (Bool × List (Polynomial ℚ) × List (Polynomial ℚ)),
    RowsOk dX (MonoidHom.mrange (Polynomial.C : ℚ →+* Polynomial ℚ).toMonoidHom) rs ∧
    rs.countP (·.1) = 1 ∧ 2 ≤ rs.length ∧ ∃ r ∈ rs, r.1 = false ∧ ∃ a ∈ r.2.1, a ≠ 0 := by
  refine ⟨[(true, [Polynomial.X, Polynomial.X ^ 2],
      [dX Polynomial.X, dX (Polynomial.X ^ 2)]),
    (false, [Polynomial.C 2, Polynomial.C 3], [])], ?_, by simp [List.countP_cons], by simp, ?_⟩
  · intro r hr
    simp at hr
    rcases hr with rfl | rfl
    · simp
    · simp only [Bool.false_eq_true, false_implies, true_implies, true_and]
      intro a ha
      simp at ha
      rcases ha with rfl | rfl
      · exact ⟨2, by simp⟩
      · exact ⟨3, by simp⟩
  · refine ⟨(false, [Polynomial.C 2, Polynomial.C 3], []), by simp, rfl, Polynomial.C 2, by simp, ?_⟩
    simp

/-! ## Outside the boundary knots -/

/-- Value at distance `u` outside the boundary of a spline with coefficients `β`; `tt j i` is the
derivative of order `deriv + j` of basis function `i` at the boundary knot. -/
def outsideSpline {n : ℕ} (degree deriv : ℕ) (u : ℚ) (tt : ℕ → Fin n → ℚ) (β : Fin n → ℚ) : ℚ :=
  ∑ i, β i * outsideValue degree deriv u (fun j => tt j i)

theorem outsideSpline_eq {n : ℕ} (degree deriv : ℕ) (u : ℚ) (tt : ℕ → Fin n → ℚ) (β : Fin n → ℚ) :
    outsideSpline degree deriv u tt β
      = (∑ j ∈ Finset.range (degree + 1 - deriv), u ^ j * ∑ i, β i * tt j i)
        / ((degree + 1 - deriv).factorial : ℚ) := by
  unfold outsideSpline outsideValue
  simp only [sum_map_range, Finset.mul_sum]
  rw [Finset.sum_comm, Finset.sum_div]
  apply Finset.sum_congr rfl
  intro j _
  rw [Finset.sum_div]
  apply Finset.sum_congr rfl
  intro i _
  ring

/-- **C94 (violated).** If the fitted spline is locally constant with value `v ≠ 0` at the boundary
(all its derivatives vanish there), then outside the boundary it is evaluated as
`v / (degree + 1)!` — for every degree `≥ 1` a jump at the boundary. -/
theorem C94_constant_violated {n : ℕ} (degree : ℕ) (hd : 1 ≤ degree) (u v : ℚ) (hv : v ≠ 0)
    (tt : ℕ → Fin n → ℚ) (β : Fin n → ℚ) (h0 : ∑ i, β i * tt 0 i = v)
    (hj : ∀ j, 1 ≤ j → ∑ i, β i * tt j i = 0) :
    outsideSpline degree 0 u tt β = v / ((degree + 1).factorial : ℚ) ∧
    outsideSpline degree 0 u tt β ≠ v := by
  have hval : outsideSpline degree 0 u tt β = v / ((degree + 1).factorial : ℚ) := by
    rw [outsideSpline_eq, Nat.sub_zero, Finset.sum_range_succ', Finset.sum_eq_zero]
    · simp [h0]
    · intro j _
      rw [hj (j + 1) (by omega), mul_zero]
  refine ⟨hval, ?_⟩
  rw [hval]
  intro h
  have hf : (0 : ℚ) < ((degree + 1).factorial : ℚ) := by exact_mod_cast Nat.factorial_pos _
  have h2 : (2 : ℚ) ≤ ((degree + 1).factorial : ℚ) := by
    have : 2 ≤ (degree + 1).factorial :=
      le_trans (by decide : 2 ≤ Nat.factorial 2) (Nat.factorial_le (by omega))
    exact_mod_cast this
  rw [div_eq_iff hf.ne'] at h
  have : v * (((degree + 1).factorial : ℚ) - 1) = 0 := by linarith
  rcases mul_eq_zero.1 this with h' | h'
  · exact hv h'
  · linarith

/-- Linear B-splines with knots 0, 1 (values 1 and 0, slopes -1 and 1 at 0); the spline 3 is
evaluated as 3/2 to the left of 0. -/
example : outsideSpline (n := 2) 1 0 (-1 / 10) (fun j i => if j = 0 then (if i = 0 then 1 else 0)
    else if j = 1 then (if i = 0 then -1 else 1) else 0) (fun _ => 3) = 3 / 2 ∧
    ∀ j, 1 ≤ j → ∑ i : Fin 2, (3 : ℚ) * (fun (j : ℕ) (i : Fin 2) => if j = 0 then (if i = 0 then (1 : ℚ)
      else 0) else if j = 1 then (if i = 0 then -1 else 1) else 0) j i = 0 := by
  constructor
  · rw [outsideSpline_eq]
    norm_num [Finset.sum_range_succ, Fin.sum_univ_succ, Nat.factorial]
  · intro j hj
    have : j ≠ 0 := by omega
    by_cases h : j = 1 <;> simp [Fin.sum_univ_succ, this, h]

/-- **C94 (top derivative).** The derivative of order equal to the degree (piecewise constant) is
continued correctly. -/
theorem C94_top_derivative {n : ℕ} (degree : ℕ) (u : ℚ) (tt : ℕ → Fin n → ℚ) (β : Fin n → ℚ) :
    outsideSpline degree degree u tt β = ∑ i, β i * tt 0 i := by
  rw [outsideSpline_eq]
  simp [Nat.add_sub_cancel_left]

/-- **C94 (exact rule).** In general the value used outside is the sum of the powers of the distance
times the boundary derivatives, all divided by `(degree + 1 - deriv)!`, instead of the term of
order `j` by `j!`. -/
theorem C94_exact_rule {n : ℕ} (degree deriv : ℕ) (u : ℚ) (tt : ℕ → Fin n → ℚ) (β : Fin n → ℚ) :
    outsideSpline degree deriv u tt β * ((degree + 1 - deriv).factorial : ℚ)
      = ∑ j ∈ Finset.range (degree + 1 - deriv), u ^ j * ∑ i, β i * tt j i := by
  rw [outsideSpline_eq, div_mul_cancel₀]
  exact_mod_cast (Nat.factorial_pos _).ne'

end Verif.Npiv
