import Verif.Honest.IdentifiedRM

/-!
# C223: identified sets under relative magnitudes combined with a sign or monotonicity restriction

Model of `compute_identified_set_rm`, `_rmb`, `_rmm`, `_sdrm`, `_sdrmb`, `_sdrmm` in one definition, with the guard on the number of
pre-periods and the search range of each variant.
-/

set_option linter.unusedSectionVars false
set_option linter.unusedSimpArgs false

namespace Verif.Honest

open Finset

variable {K : Type*} [Field K] [LinearOrder K] [IsStrictOrderedRing K]

/-! ## Model -/

/-- The additional restriction: none (`rm.py`, `sdrm.py`), `bias_direction` (`rmb.py`, `sdrmb.py`) or `monotonicity_direction` (`rmm.py`,
`sdrmm.py`). -/
inductive Extra
  | free | positive | negative | increasing | decreasing
  deriving DecidableEq

/-- Rows stacked below the relative-magnitudes rows, `rmb.py:372-378`, `rmm.py:373-380`, `sdrmb.py:631-637`, `sdrmm.py:665-672`. -/
def Extra.rows (p q : ℕ) : Extra → List (ℕ → K)
  | .free => []
  | .positive => (signConstraint p q "positive").getD []
  | .negative => (signConstraint p q "negative").getD []
  | .increasing => (monotonicityConstraint p q "increasing" false).getD []
  | .decreasing => (monotonicityConstraint p q "decreasing" false).getD []

/-- Values of `s` visited for first differences, `rm.py:317-318`, `rmb.py:269-270`, `rmm.py:270-271`. -/
def Extra.refs (p : ℕ) : Extra → List ℤ
  | .free => sRangeRM p
  | _ => sRangeRMB p

/-- The feasible set of the linear programs of one pair `(s, sign)`, `rmb.py:431-474`, `rmm.py:433-476`, `rm.py:512-557`. -/
def rmFeasible (tol : K) (p q : ℕ) (mbar : K) (e : Extra) (beta : ℕ → K) (s : ℤ) (b : Bool) : Set (ℕ → K) :=
  feasibleWith p q (rmMatrix tol p q mbar s b) 0 (e.rows p q) beta

/-- The same for second differences, `sdrm.py:349-376`, `sdrmb.py:364-391`, `sdrmm.py:379-408`. -/
def sdrmFeasible (tol : K) (p q : ℕ) (mbar : K) (e : Extra) (beta : ℕ → K) (s : ℤ) (b : Bool) : Set (ℕ → K) :=
  feasibleWith p q (sdrmMatrix tol p q mbar s b) 0 (e.rows p q) beta

/-- `compute_identified_set_rm`, `rm.py:313-350`, `compute_identified_set_rmb`, `rmb.py:266-304`, `compute_identified_set_rmm`,
`rmm.py:267-305`; `none` is the `ValueError`.  `rmax s b` and `rmin s b` are the results of the solver. -/
def rmSet (p q : ℕ) (e : Extra) (beta l : ℕ → K) (rmax rmin : ℤ → Bool → Option K) : Option (K × K) :=
  if p < 2 then none else unionSet (target p q l beta) (e.refs p) rmax rmin

/-- `compute_identified_set_sdrm`, `sdrm.py:284-306`, `compute_identified_set_sdrmb`, `sdrmb.py:295-316`,
`compute_identified_set_sdrmm`, `sdrmm.py:295-331`; `none` is the `ValueError` of `min()` over no intervals. -/
def sdrmSet (p q : ℕ) (beta l : ℕ → K) (rmax rmin : ℤ → Bool → Option K) : Option (K × K) :=
  unionSet (target p q l beta) (sRangeSDRM p) rmax rmin

/-! ## Specification -/

/-- What the additional restriction says about a path of violations. -/
def Extra.Holds (p q : ℕ) : Extra → (ℕ → K) → Prop
  | .free, _ => True
  | .positive, v => ∀ k < q, 0 ≤ v (p + k)
  | .negative, v => ∀ k < q, v (p + k) ≤ 0
  | .increasing, v => Increasing p q v
  | .decreasing, v => Decreasing p q v

/-- The solver contract for all the linear programs of a set. -/
def LpsOk (p q : ℕ) (l : ℕ → K) (ss : List ℤ) (S : ℤ → Bool → Set (ℕ → K)) (rmax rmin : ℤ → Bool → Option K) : Prop :=
  ∀ s ∈ ss, ∀ b, LpMin (S s b) (fun v => -target p q l v) (rmax s b) ∧ LpMin (S s b) (target p q l) (rmin s b)

/-! ## Lemmas -/

theorem extra_sat (p q : ℕ) (hp : 1 ≤ p) (e : Extra) (v : ℕ → K) : Sat (p + q) (e.rows p q) 0 v ↔ e.Holds p q v := by
  cases e with
  | free => simp [Extra.rows, Extra.Holds, Sat]
  | positive =>
    obtain ⟨A, hA, h⟩ := (C61_sign p q v).1
    simp only [Extra.rows, Extra.Holds, hA, Option.getD_some]; exact h
  | negative =>
    obtain ⟨A, hA, h⟩ := (C61_sign p q v).2
    simp only [Extra.rows, Extra.Holds, hA, Option.getD_some]; exact h
  | increasing =>
    obtain ⟨A, hA, h⟩ := (C61_monotonicity p q hp v).1
    simp only [Extra.rows, Extra.Holds, hA, Option.getD_some]; exact h
  | decreasing =>
    obtain ⟨A, hA, h⟩ := (C61_monotonicity p q hp v).2.1
    simp only [Extra.rows, Extra.Holds, hA, Option.getD_some]; exact h

/-- The post-treatment part of a path. -/
def postPart (p : ℕ) (v : ℕ → K) (j : ℕ) : K := if j < p then 0 else v j

theorem full_postPart (p : ℕ) (v : ℕ → K) (j : ℕ) : full p (postPart p v) j = if j ≤ p then 0 else full p v j := by
  unfold full postPart
  rcases Nat.lt_trichotomy j p with h | h | h
  · rw [if_pos h, if_pos h, if_pos h.le]
  · rw [if_neg (by omega), if_pos h, if_pos h.le]
  · rw [if_neg (by omega), if_neg (by omega), if_neg (by omega), if_neg (by omega), if_neg (by omega), if_neg (by omega)]

theorem full_ref (p : ℕ) (v : ℕ → K) : full p v p = 0 := by simp [full]

theorem D1_postPart (p : ℕ) (v : ℕ → K) (r : ℕ) : D1 (full p (postPart p v)) r = if r < p then 0 else D1 (full p v) r := by
  unfold D1
  rw [full_postPart, full_postPart]
  by_cases h : r < p
  · rw [if_pos (by omega), if_pos (by omega), if_pos h, sub_zero]
  · rw [if_neg (by omega), if_neg h]
    by_cases h' : r = p
    · subst h'; rw [if_pos le_rfl, full_ref]
    · rw [if_neg (by omega)]

theorem extra_postPart (p q : ℕ) (e : Extra) (v : ℕ → K) (h : e.Holds p q v) : e.Holds p q (postPart p v) := by
  cases e with
  | free => trivial
  | positive =>
    intro k hk
    have := h k hk
    unfold postPart
    rwa [if_neg (by omega)]
  | negative =>
    intro k hk
    have := h k hk
    unfold postPart
    rwa [if_neg (by omega)]
  | increasing =>
    intro r hr
    have h1 : 0 ≤ D1 (full p (postPart p v)) r := by
      rw [D1_postPart]
      split_ifs
      · exact le_rfl
      · exact sub_nonneg.2 (h r hr)
    exact sub_nonneg.1 h1
  | decreasing =>
    intro r hr
    have h1 : D1 (full p (postPart p v)) r ≤ 0 := by
      rw [D1_postPart]
      split_ifs
      · exact le_rfl
      · exact sub_nonpos.2 (h r hr)
    exact sub_nonpos.1 h1

/-- Rows of the stack for reference `s = 0`. -/
theorem rm_zero_sat (tol : K) (p q : ℕ) (mbar : K) (b : Bool) (v : ℕ → K) :
    Sat (p + q) (rmMatrix tol p q mbar 0 b) 0 v ↔
      ∀ a ∈ dropZeroRows (p + q + 1) tol (absStack (firstDiffPy p q)
        (ubRows p q mbar (signed b (setSlice p [-1, 1] fun _ => (0 : K))))), dotN (p + q + 1) a (full p v) ≤ 0 := by
  unfold rmMatrix Sat
  have hn : ((p : ℤ) + 0).toNat = p := by omega
  simp only [hn, List.mem_map, forall_exists_index, and_imp, forall_apply_eq_imp_iff₂, dotN_delCol]

/-- If a path satisfies the rows for reference `s = 0`, so does its post-treatment part. -/
theorem rm_zero_post (tol : K) (h1 : tol < 1) (p q : ℕ) (hp : 1 ≤ p) (hq : 1 ≤ q) (mbar : K) (b : Bool) (v : ℕ → K)
    (h : Sat (p + q) (rmMatrix tol p q mbar 0 b) 0 v) : Sat (p + q) (rmMatrix tol p q mbar 0 b) 0 (postPart p v) := by
  rw [rm_zero_sat] at h ⊢
  set vm := signed b (setSlice p [-1, 1] fun _ => (0 : K)) with hvm
  have hfd : firstDiffPy p q = (List.range (p + q)).map fun r => setSlice r [-1, 1] fun _ => (0 : K) := rfl
  rw [ubRows_eq, hfd, absStack_eq] at h ⊢
  have hv : ∀ w : ℕ → K, dotN (p + q + 1) vm (full p w) = sgn b * D1 (full p w) p := by
    intro w; rw [hvm, dotN_signed, dotN_first _ _ _ (by omega)]; rfl
  have dsub : ∀ (a u w : ℕ → K), dotN (p + q + 1) (fun j => a j - u j) w = dotN (p + q + 1) a w - dotN (p + q + 1) u w := by
    intro a u w
    unfold dotN
    rw [← sum_sub_distrib]
    exact sum_congr rfl fun j _ => by ring
  have dneg : ∀ (a u w : ℕ → K), dotN (p + q + 1) (fun j => -a j - u j) w = -dotN (p + q + 1) a w - dotN (p + q + 1) u w := by
    intro a u w
    unfold dotN
    rw [← sum_neg_distrib, ← sum_sub_distrib]
    exact sum_congr rfl fun j _ => by ring
  -- the reference difference is not negative
  have hkeep : ∀ c : K, c = 1 ∨ c = -1 → ∃ j ∈ range (p + q + 1), tol < |c * (setSlice 0 [-1, 1] fun _ => (0 : K)) j - vm j| := by
    intro c hc
    have habs : |c| = 1 := by rcases hc with rfl | rfl <;> simp
    refine ⟨0, by simp, ?_⟩
    rw [hvm, signed_apply, first_apply, first_apply, if_neg (by omega), if_pos rfl, if_neg (by omega), if_neg (by omega)]
    simpa [habs] using h1
  have hpos : 0 ≤ sgn b * D1 (full p v) p := by
    have e1 := h (fun j => (setSlice 0 [-1, 1] fun _ => (0 : K)) j - vm j) (by
      unfold dropZeroRows
      rw [List.mem_filter]
      refine ⟨?_, ?_⟩
      · simp only [List.mem_append, List.mem_map, List.mem_range]
        refine Or.inl ⟨0, by omega, ?_⟩
        funext j
        rw [if_pos (by omega)]
      · obtain ⟨j, hj, ht⟩ := hkeep 1 (Or.inl rfl)
        rw [one_mul] at ht
        exact decide_eq_true ⟨j, hj, ht⟩)
    have e2 := h (fun j => -(setSlice 0 [-1, 1] fun _ => (0 : K)) j - vm j) (by
      unfold dropZeroRows
      rw [List.mem_filter]
      refine ⟨?_, ?_⟩
      · simp only [List.mem_append, List.mem_map, List.mem_range]
        refine Or.inr ⟨0, by omega, ?_⟩
        funext j
        rw [if_pos (by omega)]
      · obtain ⟨j, hj, ht⟩ := hkeep (-1) (Or.inr rfl)
        rw [neg_one_mul] at ht
        exact decide_eq_true ⟨j, hj, ht⟩)
    rw [dsub, hv] at e1
    rw [dneg, hv] at e2
    linarith
  have hpp : D1 (full p (postPart p v)) p = D1 (full p v) p := by rw [D1_postPart, if_neg (by omega)]
  intro a ha
  have hle := h a ha
  unfold dropZeroRows at ha
  rw [List.mem_filter] at ha
  obtain ⟨ha, -⟩ := ha
  simp only [List.mem_append, List.mem_map, List.mem_range] at ha
  rcases ha with ⟨i, hi, rfl⟩ | ⟨i, hi, rfl⟩
  · rw [dsub] at hle ⊢
    rw [dotN_first _ _ _ (by omega)] at hle ⊢
    by_cases hip : i < p
    · rw [if_pos hip] at hle ⊢
      rw [hv, hpp]
      have : full p (postPart p v) (i + 1) - full p (postPart p v) i = 0 := by
        have := D1_postPart p v i
        rw [if_pos hip] at this
        exact this
      have e3 : D1 (full p (postPart p v)) i = 0 := this
      first
        | rw [e3]; linarith
        | rw [this]; linarith
    · rw [if_neg hip] at hle ⊢
      rw [dotN_smul, hv] at hle ⊢
      rw [hpp]
      have e3 : D1 (full p (postPart p v)) i = D1 (full p v) i := by rw [D1_postPart, if_neg hip]
      rw [e3]
      exact hle
  · rw [dneg] at hle ⊢
    rw [dotN_first _ _ _ (by omega)] at hle ⊢
    by_cases hip : i < p
    · rw [if_pos hip] at hle ⊢
      rw [hv, hpp]
      have e3 : D1 (full p (postPart p v)) i = 0 := by rw [D1_postPart, if_pos hip]
      rw [e3]; linarith
    · rw [if_neg hip] at hle ⊢
      rw [dotN_smul, hv] at hle ⊢
      rw [hpp]
      have e3 : D1 (full p (postPart p v)) i = D1 (full p v) i := by rw [D1_postPart, if_neg hip]
      rw [e3]
      exact hle

theorem sat_cone (n : ℕ) (A : List (ℕ → K)) (v w : ℕ → K) (hv : Sat n A 0 v) (hw : Sat n A 0 w) (c : K) (hc : 0 ≤ c) :
    Sat n A 0 (fun j => v j + c * w j) := by
  intro a ha
  have h1 := hv a ha
  have h2 := hw a ha
  have e : dotN n a (fun j => v j + c * w j) = dotN n a v + c * dotN n a w := by
    unfold dotN
    rw [mul_sum, ← sum_add_distrib]
    exact sum_congr rfl fun j _ => by ring
  rw [e]
  have := mul_nonpos_of_nonneg_of_nonpos hc h2
  linarith

theorem target_postPart (p q : ℕ) (l v : ℕ → K) (c : K) :
    target p q l (fun j => v j + c * postPart p v j) = (1 + c) * target p q l v := by
  unfold target
  rw [mul_sum]
  refine sum_congr rfl fun k _ => ?_
  have : postPart p v (p + k) = v (p + k) := by unfold postPart; rw [if_neg (by omega)]
  beta_reduce
  rw [this]; ring

/-- A feasible set closed under scaling the post-treatment part up contributes exactly the point estimate. -/
theorem point_of_cone (p q : ℕ) (l : ℕ → K) (obs : K) (S : Set (ℕ → K))
    (hS : ∀ v ∈ S, ∀ c : K, 0 ≤ c → (fun j => v j + c * postPart p v j) ∈ S) (rmax rmin : Option K)
    (hM : LpMin S (fun v => -target p q l v) rmax) (hm : LpMin S (target p q l) rmin) :
    bounds obs rmax rmin = (obs, obs) := by
  cases rmax with
  | none => rfl
  | some a =>
    cases rmin with
    | none => rfl
    | some b =>
      obtain ⟨⟨u, hu, hfu⟩, ha⟩ := hM
      obtain ⟨⟨w, hw, hfw⟩, hb⟩ := hm
      simp only at hfu
      have za : ∀ v ∈ S, target p q l v = 0 := by
        intro v hv
        have h2 := hS v hv 1 zero_le_one
        by_contra hne
        rcases lt_or_gt_of_ne hne with hlt | hgt
        · -- unbounded below: scale so that the value goes under `b`
          have h3 : b ≤ target p q l v := hb ⟨v, hv, rfl⟩
          set c : K := b / target p q l v with hc
          have hc1 : 1 ≤ c := by
            rw [hc, le_div_iff_of_neg hlt, one_mul]; exact h3
          have h4 : b ≤ (1 + c) * target p q l v := by
            rw [← target_postPart]; exact hb ⟨_, hS v hv c (by linarith), rfl⟩
          have h5 : c * target p q l v = b := by rw [hc]; exact div_mul_cancel₀ _ hlt.ne
          nlinarith
        · have h3 : a ≤ -target p q l v := ha ⟨v, hv, rfl⟩
          set c : K := -a / target p q l v with hc
          have hc1 : 1 ≤ c := by
            rw [hc, le_div_iff₀ hgt, one_mul]; linarith
          have h4 : a ≤ -((1 + c) * target p q l v) := by
            rw [← target_postPart]; exact ha ⟨_, hS v hv c (by linarith), rfl⟩
          have h5 : c * target p q l v = -a := by rw [hc]; exact div_mul_cancel₀ _ hgt.ne'
          nlinarith
      have e1 : a = 0 := by rw [← hfu, za u hu, neg_zero]
      have e2 : b = 0 := by rw [← hfw, za w hw]
      subst e1; subst e2
      simp [bounds]

/-- The programs for `s = 0` always contribute exactly the point estimate. -/
theorem zero_ref_point (tol : K) (h1 : tol < 1) (p q : ℕ) (hp : 1 ≤ p) (hq : 1 ≤ q) (mbar : K) (e : Extra) (beta l : ℕ → K) (b : Bool)
    (obs : K) (rmax rmin : Option K)
    (hM : LpMin (rmFeasible tol p q mbar e beta 0 b) (fun v => -target p q l v) rmax)
    (hm : LpMin (rmFeasible tol p q mbar e beta 0 b) (target p q l) rmin) : bounds obs rmax rmin = (obs, obs) := by
  refine point_of_cone p q l obs _ ?_ rmax rmin hM hm
  rintro v ⟨⟨hv, he⟩, hpre⟩ c hc
  refine ⟨⟨sat_cone _ _ _ _ hv (rm_zero_post tol h1 p q hp hq mbar b v hv) c hc, ?_⟩, ?_⟩
  · refine sat_cone _ _ _ _ he ?_ c hc
    rw [extra_sat p q hp] at he ⊢
    exact extra_postPart p q e v he
  · intro j hj
    show v j + c * postPart p v j = beta j
    unfold postPart
    rw [if_pos hj, mul_zero, add_zero]
    exact hpre j hj

end Verif.Honest
