import Verif.Honest.Combined

/-!
# C223: identified sets under combined restrictions, theorems
-/

set_option linter.unusedSectionVars false
set_option linter.unusedSimpArgs false

namespace Verif.Honest

open Finset

variable {K : Type*} [Field K] [LinearOrder K] [IsStrictOrderedRing K]

/-- The pre-treatment part of a path. -/
def prePart (p : ℕ) (v : ℕ → K) (j : ℕ) : K := if j < p then v j else 0

theorem full_prePart (p : ℕ) (v : ℕ → K) (j : ℕ) : full p (prePart p v) j = if j < p then full p v j else 0 := by
  unfold full prePart
  rcases Nat.lt_trichotomy j p with h | h | h
  · rw [if_pos h, if_pos h, if_pos h, if_pos h]
  · rw [if_neg (by omega), if_pos h, if_neg (by omega)]
  · rw [if_neg (by omega), if_neg (by omega), if_neg (by omega), if_neg (by omega)]

theorem D1_prePart (p : ℕ) (v : ℕ → K) (r : ℕ) : D1 (full p (prePart p v)) r = if r < p then D1 (full p v) r else 0 := by
  unfold D1
  rw [full_prePart, full_prePart]
  by_cases h : r < p
  · rw [if_pos h, if_pos h]
    by_cases h' : r + 1 < p
    · rw [if_pos h']
    · have : r + 1 = p := by omega
      rw [if_neg h', this, full_ref]
  · rw [if_neg (by omega), if_neg h, if_neg h, sub_zero]

theorem extra_prePart (p q : ℕ) (e : Extra) (v : ℕ → K) (h : e.Holds p q v) : e.Holds p q (prePart p v) := by
  cases e with
  | free => trivial
  | positive =>
    intro k hk
    unfold prePart
    rw [if_neg (by omega)]
  | negative =>
    intro k hk
    unfold prePart
    rw [if_neg (by omega)]
  | increasing =>
    intro r hr
    have h1 : 0 ≤ D1 (full p (prePart p v)) r := by
      rw [D1_prePart]
      split_ifs
      · exact sub_nonneg.2 (h r hr)
      · exact le_rfl
    exact sub_nonneg.1 h1
  | decreasing =>
    intro r hr
    have h1 : D1 (full p (prePart p v)) r ≤ 0 := by
      rw [D1_prePart]
      split_ifs
      · exact sub_nonpos.2 (h r hr)
      · exact le_rfl
    exact sub_nonpos.1 h1

theorem refs_cases (p : ℕ) (e : Extra) (s : ℤ) (h : s ∈ e.refs p) :
    s = 0 ∨ ∃ s0 : ℕ, 1 ≤ s0 ∧ s0 < p ∧ (p : ℤ) + s = s0 := by
  have hb : s ∈ sRangeRMB p → s = 0 ∨ ∃ s0 : ℕ, 1 ≤ s0 ∧ s0 < p ∧ (p : ℤ) + s = s0 := by
    unfold sRangeRMB
    simp only [List.mem_map, List.mem_range]
    rintro ⟨k, hk, rfl⟩
    by_cases h0 : k + 1 = p
    · left; omega
    · exact Or.inr ⟨k + 1, by omega, by omega, by push_cast; ring⟩
  cases e with
  | free => exact Or.inr (sRangeRM_ref p s h)
  | positive => exact hb h
  | negative => exact hb h
  | increasing => exact hb h
  | decreasing => exact hb h

theorem refs_mem (p : ℕ) (e : Extra) (s0 : ℕ) (h1 : 1 ≤ s0) (h2 : s0 < p) : (s0 : ℤ) - p ∈ e.refs p := by
  have hb : (s0 : ℤ) - p ∈ sRangeRMB p := by
    unfold sRangeRMB
    simp only [List.mem_map, List.mem_range]
    exact ⟨s0 - 1, by omega, by omega⟩
  have ha : (s0 : ℤ) - p ∈ sRangeRM p := by
    unfold sRangeRM
    simp only [List.mem_map, List.mem_range]
    exact ⟨s0 - 1, by omega, by omega⟩
  cases e <;> assumption

/-- The reported interval of a union of pieces each of which is either exactly the identified set or a point. -/
theorem union_exact (p q : ℕ) (l beta : ℕ → K) (I : Set K) (ss : List ℤ) (rmax rmin : ℤ → Bool → Option K) (r : K × K)
    (hr : unionSet (target p q l beta) ss rmax rmin = some r)
    (hp : ∀ s ∈ ss, ∀ b, (∀ θ, ((bounds (target p q l beta) (rmax s b) (rmin s b)).1 ≤ θ ∧
      θ ≤ (bounds (target p q l beta) (rmax s b) (rmin s b)).2) ↔ θ ∈ I) ∨
      bounds (target p q l beta) (rmax s b) (rmin s b) = (target p q l beta, target p q l beta))
    (hex : ∃ s ∈ ss, ∃ b, ∀ θ, ((bounds (target p q l beta) (rmax s b) (rmin s b)).1 ≤ θ ∧
      θ ≤ (bounds (target p q l beta) (rmax s b) (rmin s b)).2) ↔ θ ∈ I)
    (hne : I.Nonempty) :
    (∀ θ ∈ I, r.1 ≤ θ ∧ θ ≤ r.2) ∧ (r.1 = target p q l beta ∨ r.1 ∈ I) ∧ (r.2 = target p q l beta ∨ r.2 ∈ I) ∧
      (target p q l beta ∈ I → ∀ θ, (r.1 ≤ θ ∧ θ ≤ r.2) ↔ θ ∈ I) := by
  obtain ⟨h1, ⟨s, hs, b, e1⟩, ⟨t, ht, b', e2⟩⟩ := unionSet_spec _ _ _ _ _ hr
  obtain ⟨u, hu, c, hc⟩ := hex
  obtain ⟨x, hx⟩ := hne
  have hin : ∀ θ ∈ I, r.1 ≤ θ ∧ θ ≤ r.2 := by
    intro θ hθ
    obtain ⟨ha, hb⟩ := (hc θ).2 hθ
    exact ⟨(h1 u hu c).1.trans ha, hb.trans (h1 u hu c).2⟩
  have hlo : r.1 = target p q l beta ∨ r.1 ∈ I := by
    rcases hp s hs b with h | h
    · right
      rw [← e1]
      have hx' := (h x).2 hx
      exact (h _).1 ⟨le_rfl, hx'.1.trans hx'.2⟩
    · left; rw [← e1, h]
  have hhi : r.2 = target p q l beta ∨ r.2 ∈ I := by
    rcases hp t ht b' with h | h
    · right
      rw [← e2]
      have hx' := (h x).2 hx
      exact (h _).1 ⟨hx'.1.trans hx'.2, le_rfl⟩
    · left; rw [← e2, h]
  refine ⟨hin, hlo, hhi, fun ho θ => ⟨?_, hin θ⟩⟩
  rintro ⟨ha, hb⟩
  have h3 : r.1 ∈ I := by rcases hlo with h | h; · rw [h]; exact ho
                          · exact h
  have h4 : r.2 ∈ I := by rcases hhi with h | h; · rw [h]; exact ho
                          · exact h
  exact (hc θ).1 ⟨((hc _).2 h3).1.trans ha, hb.trans ((hc _).2 h4).2⟩

theorem bounds_empty (p q : ℕ) (S : Set (ℕ → K)) (l : ℕ → K) (obs : K) (rmax rmin : Option K)
    (hM : LpMin S (fun v => -target p q l v) rmax) (hm : LpMin S (target p q l) rmin) (he : S = ∅) :
    bounds obs rmax rmin = (obs, obs) := by
  cases rmin with
  | some m =>
    obtain ⟨⟨v, hv, _⟩, _⟩ := hm
    rw [he] at hv
    exact absurd hv (Set.notMem_empty _)
  | none => cases rmax <;> rfl

/-- A piece for a reference difference before the treatment is the documented set, or empty. -/
theorem rm_piece (tol : K) (h0 : 0 ≤ tol) (h1 : tol < 1) (p q : ℕ) (hp : 1 ≤ p) (mbar : K) (e : Extra) (beta : ℕ → K)
    (s : ℤ) (s0 : ℕ) (hs0 : s0 < p) (hs : (p : ℤ) + s = s0) (b : Bool) :
    rmFeasible tol p q mbar e beta s b =
      {v | (PolyRM p q mbar s0 b v ∧ e.Holds p q v) ∧ ∀ j < p, v j = beta j} := by
  ext v
  show ((Sat (p + q) (rmMatrix tol p q mbar s b) 0 v ∧ Sat (p + q) (e.rows p q) 0 v) ∧ _) ↔ _
  rw [C62_rm_fixed tol h0 h1 p q mbar s s0 hs hs0 b v, extra_sat p q hp]
  rfl

/-- With the pre-treatment coefficients given, a non-empty piece is the whole documented set. -/
theorem rm_piece_doc (p q : ℕ) (mbar : K) (beta : ℕ → K) (s0 : ℕ) (hs0 : s0 < p) (b : Bool)
    (hb : ∀ r < p, |D1 (full p beta) r| ≤ sgn b * D1 (full p beta) s0) (v : ℕ → K) (hv : ∀ j < p, v j = beta j) :
    PolyRM p q mbar s0 b v ↔ v ∈ DeltaRM p q mbar := by
  constructor
  · intro h
    exact (C62_union p q mbar v).2 ⟨s0, hs0, b, h⟩
  · rintro ⟨s1, hs1, ha, hc⟩
    have e1 : |D1 (full p v) s1| ≤ sgn b * D1 (full p v) s0 := by
      rw [D1_pre p v beta hv s1 hs1, D1_pre p v beta hv s0 hs0]; exact hb s1 hs1
    have e2 : sgn b * D1 (full p v) s0 ≤ |D1 (full p v) s0| := by
      rcases sgn_ne (K := K) b with h | h <;> rw [h]
      · rw [one_mul]; exact le_abs_self _
      · rw [neg_one_mul]; exact neg_le_abs _
    have e3 := ha s0 hs0
    have e4 : |D1 (full p v) s1| = sgn b * D1 (full p v) s0 := le_antisymm e1 (e2.trans e3)
    refine ⟨fun r hr => ?_, fun t ht ht' => ?_⟩
    · rw [← e4]; exact ha r hr
    · rw [← e4]; exact hc t ht ht'

/-! ## C223, first differences -/

/-- C223.  Relative magnitudes, without or with a sign or monotonicity restriction, at least two pre-periods: if the largest pre-treatment
change of the coefficients is attained at some difference other than the first, and the restriction is compatible with them, the reported
interval is EXACTLY the identified set. -/
theorem C223_rm_exact (tol : K) (h0 : 0 ≤ tol) (h1 : tol < 1) (p q : ℕ) (hp : 2 ≤ p) (hq : 1 ≤ q) (mbar : K) (hm0 : 0 ≤ mbar) (e : Extra)
    (beta l : ℕ → K) (hbeta : ∃ s0, 1 ≤ s0 ∧ s0 < p ∧ ∀ r < p, |D1 (full p beta) r| ≤ |D1 (full p beta) s0|)
    (hne : (IdSet p q {v | v ∈ DeltaRM p q mbar ∧ e.Holds p q v} beta l).Nonempty) (rmax rmin : ℤ → Bool → Option K)
    (hlp : LpsOk p q l (e.refs p) (rmFeasible tol p q mbar e beta) rmax rmin) :
    ∃ r, rmSet p q e beta l rmax rmin = some r ∧
      ∀ θ, (r.1 ≤ θ ∧ θ ≤ r.2) ↔ θ ∈ IdSet p q {v | v ∈ DeltaRM p q mbar ∧ e.Holds p q v} beta l := by
  obtain ⟨s0, hs1, hs2, hmax⟩ := hbeta
  have href := refs_mem p e s0 hs1 hs2
  obtain ⟨r, hr⟩ := unionSet_some (target p q l beta) (e.refs p) (List.ne_nil_of_mem href) rmax rmin
  refine ⟨r, by unfold rmSet; rw [if_neg (by omega)]; exact hr, ?_⟩
  -- the piece for a reference difference whose signed value is the maximum
  have exact_piece : ∀ s ∈ e.refs p, ∀ b, ∀ s' : ℕ, s' < p → (p : ℤ) + s = s' →
      (∀ r < p, |D1 (full p beta) r| ≤ sgn b * D1 (full p beta) s') →
      ∀ θ, ((bounds (target p q l beta) (rmax s b) (rmin s b)).1 ≤ θ ∧ θ ≤ (bounds (target p q l beta) (rmax s b) (rmin s b)).2) ↔
        θ ∈ IdSet p q {v | v ∈ DeltaRM p q mbar ∧ e.Holds p q v} beta l := by
    intro s hs b s' hs' heq hb θ
    have hS : rmFeasible tol p q mbar e beta s b =
        {v | v ∈ {v | v ∈ DeltaRM p q mbar ∧ e.Holds p q v} ∧ ∀ j < p, v j = beta j} := by
      rw [rm_piece tol h0 h1 p q (by omega) mbar e beta s s' hs' heq b]
      ext v
      constructor
      · rintro ⟨⟨ha, he⟩, hv⟩
        exact ⟨⟨(rm_piece_doc p q mbar beta s' hs' b hb v hv).1 ha, he⟩, hv⟩
      · rintro ⟨⟨ha, he⟩, hv⟩
        exact ⟨⟨(rm_piece_doc p q mbar beta s' hs' b hb v hv).2 ha, he⟩, hv⟩
    refine exact_of p q beta l _ _ hS (feasibleWith_conv p q _ 0 _ beta) ?_ _ _ (hlp s hs b).1 (hlp s hs b).2 hne θ
    refine rm_bounded p q l _ (mbar * (sgn b * D1 (full p beta) s')) ?_
    intro v hv t ht1 ht2
    rw [rm_piece tol h0 h1 p q (by omega) mbar e beta s s' hs' heq b] at hv
    have := hv.1.1.2 t ht1 ht2
    rwa [D1_pre p v beta hv.2 s' hs'] at this
  have main := union_exact p q l beta (IdSet p q {v | v ∈ DeltaRM p q mbar ∧ e.Holds p q v} beta l) (e.refs p) rmax rmin r hr ?_ ?_ hne
  · refine main.2.2.2 ?_
    obtain ⟨_, δ, ⟨hd, he⟩, hpre, _⟩ := hne
    refine ⟨prePart p δ, ⟨?_, extra_prePart p q e δ he⟩, ?_, ?_⟩
    · obtain ⟨s1, hs1, ha, hc⟩ := hd
      refine ⟨s1, hs1, ?_, ?_⟩
      · intro r hr
        rw [D1_prePart, D1_prePart, if_pos hr, if_pos hs1]
        exact ha r hr
      · intro t ht _
        rw [D1_prePart, D1_prePart, if_neg (by omega), if_pos hs1, abs_zero]
        exact mul_nonneg hm0 (abs_nonneg _)
    · intro j hj
      unfold prePart
      rw [if_pos hj, hpre j hj]
    · unfold target
      refine sum_congr rfl fun k _ => ?_
      unfold prePart
      rw [if_neg (by omega), sub_zero]
  · intro s hs b
    rcases refs_cases p e s hs with rfl | ⟨s', h1', h2', heq⟩
    · right
      exact zero_ref_point tol h1 p q (by omega) hq mbar e beta l b _ _ _ (hlp 0 hs b).1 (hlp 0 hs b).2
    · by_cases hb : ∀ r < p, |D1 (full p beta) r| ≤ sgn b * D1 (full p beta) s'
      · exact Or.inl (exact_piece s hs b s' h2' heq hb)
      · right
        refine bounds_empty p q _ l _ _ _ (hlp s hs b).1 (hlp s hs b).2 ?_
        rw [rm_piece tol h0 h1 p q (by omega) mbar e beta s s' h2' heq b, Set.eq_empty_iff_forall_notMem]
        rintro v ⟨⟨ha, _⟩, hv⟩
        refine hb fun r hr => ?_
        have := ha.1 r hr
        rwa [D1_pre p v beta hv r hr, D1_pre p v beta hv s' h2'] at this
  · refine ⟨(s0 : ℤ) - p, href, decide (0 ≤ D1 (full p beta) s0), exact_piece _ href _ s0 hs2 (by ring) ?_⟩
    intro r hr
    refine (hmax r hr).trans (le_of_eq ?_)
    by_cases h : 0 ≤ D1 (full p beta) s0
    · simp [sgn, h, abs_of_nonneg h]
    · have := abs_of_neg (lt_of_not_ge h)
      simp [sgn, h, this]

/-- C223.  Fewer than two pre-periods raise. -/
theorem C223_rm_raises (p q : ℕ) (e : Extra) (beta l : ℕ → K) (rmax rmin : ℤ → Bool → Option K) :
    rmSet p q e beta l rmax rmin = none ↔ p < 2 := by
  unfold rmSet
  by_cases h : p < 2
  · simp [h]
  · rw [if_neg h]
    have href := refs_mem p e 1 le_rfl (by omega)
    obtain ⟨r, hr⟩ := unionSet_some (target p q l beta) (e.refs p) (List.ne_nil_of_mem href) rmax rmin
    simp [hr, h]

/-- C223 (violated).  With any of the sign or monotonicity restrictions (or none): if the first pre-treatment change of the coefficients
is strictly the largest, the reported set is the point estimate, whatever the restriction allows after the treatment; an effect for which
the bias does not cancel is excluded although its path satisfies both documented restrictions. -/
theorem C223_rm_first_violated (tol : K) (h0 : 0 ≤ tol) (h1 : tol < 1) (p q : ℕ) (hp : 2 ≤ p) (hq : 1 ≤ q) (mbar : K) (e : Extra)
    (δ τ l : ℕ → K) (hδ : δ ∈ DeltaRM p q mbar ∧ e.Holds p q δ)
    (hfirst : ∀ r, 1 ≤ r → r < p → |D1 (full p δ) r| < |D1 (full p δ) 0|) (hbias : target p q l δ ≠ 0)
    (rmax rmin : ℤ → Bool → Option K)
    (hlp : LpsOk p q l (e.refs p) (rmFeasible tol p q mbar e (observe p δ τ)) rmax rmin) :
    ∃ x, rmSet p q e (observe p δ τ) l rmax rmin = some (x, x) ∧ ∑ k ∈ range q, l k * τ k ≠ x := by
  have href := refs_mem p e 1 le_rfl (by omega)
  obtain ⟨r, hr⟩ := unionSet_some (target p q l (observe p δ τ)) (e.refs p) (List.ne_nil_of_mem href) rmax rmin
  have hpt : ∀ s ∈ e.refs p, ∀ b, bounds (target p q l (observe p δ τ)) (rmax s b) (rmin s b) =
      (target p q l (observe p δ τ), target p q l (observe p δ τ)) := by
    intro s hs b
    rcases refs_cases p e s hs with rfl | ⟨s', h1', h2', heq⟩
    · exact zero_ref_point tol h1 p q (by omega) hq mbar e _ l b _ _ _ (hlp 0 hs b).1 (hlp 0 hs b).2
    · refine bounds_empty p q _ l _ _ _ (hlp s hs b).1 (hlp s hs b).2 ?_
      rw [rm_piece tol h0 h1 p q (by omega) mbar e _ s s' h2' heq b, Set.eq_empty_iff_forall_notMem]
      rintro v ⟨⟨ha, _⟩, hv⟩
      have hv' : ∀ j < p, v j = δ j := fun j hj => by rw [hv j hj]; simp [observe, hj]
      have h3 := ha.1 0 (by omega)
      rw [D1_pre p v δ hv' 0 (by omega), D1_pre p v δ hv' s' h2'] at h3
      have h4 := hfirst s' h1' h2'
      have h5 : sgn b * D1 (full p δ) s' ≤ |D1 (full p δ) s'| := by
        rcases sgn_ne (K := K) b with h | h <;> rw [h]
        · rw [one_mul]; exact le_abs_self _
        · rw [neg_one_mul]; exact neg_le_abs _
      exact absurd (h3.trans h5) (not_le.2 h4)
  obtain ⟨_, ⟨s, hs, b, e1⟩, ⟨t, ht, b', e2⟩⟩ := unionSet_spec _ _ _ _ _ hr
  rw [hpt s hs b] at e1
  rw [hpt t ht b'] at e2
  refine ⟨target p q l (observe p δ τ), ?_, ?_⟩
  · unfold rmSet
    rw [if_neg (by omega), hr]
    exact congrArg some (Prod.ext e1.symm e2.symm)
  · rw [← observe_target p q l δ τ]
    intro h
    exact hbias (by linarith)

/-! ## C223, second differences -/

theorem sdrm_piece (tol : K) (h0 : 0 ≤ tol) (h1 : tol < 1) (p q : ℕ) (hp : 1 ≤ p) (mbar : K) (e : Extra) (beta : ℕ → K)
    (s : ℤ) (s0 : ℕ) (hs0 : s0 + 2 ≤ p) (hs : (p : ℤ) + s - 2 = s0) (b : Bool) :
    sdrmFeasible tol p q mbar e beta s b =
      {v | (PolySDRM p q mbar s0 b v ∧ e.Holds p q v) ∧ ∀ j < p, v j = beta j} := by
  ext v
  show ((Sat (p + q) (sdrmMatrix tol p q mbar s b) 0 v ∧ Sat (p + q) (e.rows p q) 0 v) ∧ _) ↔ _
  rw [C62_sdrm_fixed tol h0 h1 p q mbar s s0 hs hs0 b v, extra_sat p q hp]
  rfl

theorem sdrm_piece_doc (p q : ℕ) (mbar : K) (beta : ℕ → K) (s0 : ℕ) (hs0 : s0 + 2 ≤ p) (b : Bool)
    (hb : ∀ r, r + 2 ≤ p → |D2 (full p beta) r| ≤ sgn b * D2 (full p beta) s0) (v : ℕ → K) (hv : ∀ j < p, v j = beta j) :
    PolySDRM p q mbar s0 b v ↔ v ∈ DeltaSDRM p q mbar := by
  have hv0 : ∀ r, r + 2 ≤ p → |D2 (full p v) r| ≤ sgn b * D2 (full p v) s0 := by
    intro r hr
    rw [D2_pre p v beta hv r hr, D2_pre p v beta hv s0 hs0]
    exact hb r hr
  have e2 : sgn b * D2 (full p v) s0 ≤ |D2 (full p v) s0| := by
    rcases sgn_ne (K := K) b with h | h <;> rw [h]
    · rw [one_mul]; exact le_abs_self _
    · rw [neg_one_mul]; exact neg_le_abs _
  have e0 : |D2 (full p v) s0| = sgn b * D2 (full p v) s0 := le_antisymm (hv0 s0 hs0) e2
  constructor
  · rintro ⟨ha, hc⟩
    refine ⟨s0, hs0, ?_, ?_⟩
    · rw [e0]; exact ha
    · rw [e0]; exact hc
  · rintro ⟨s1, hs1, ha, hc⟩
    have e4 : |D2 (full p v) s1| = sgn b * D2 (full p v) s0 :=
      le_antisymm (hv0 s1 hs1) (e0 ▸ ha s0 hs0)
    refine ⟨fun r hr => ?_, fun t ht ht' => ?_⟩
    · rw [← e4]; exact ha r hr
    · rw [← e4]; exact hc t ht ht'

/-- A pre-treatment second difference of largest size exists. -/
theorem D2_max (p : ℕ) (hp : 2 ≤ p) (x : ℕ → K) : ∃ s0, s0 + 2 ≤ p ∧ ∀ r, r + 2 ≤ p → |D2 x r| ≤ |D2 x s0| := by
  obtain ⟨s0, hs, h⟩ := Finset.exists_max_image (range (p - 1)) (fun r => |D2 x r|) ⟨0, by simp; omega⟩
  rw [mem_range] at hs
  exact ⟨s0, by omega, fun r hr => h r (by rw [mem_range]; omega)⟩

/-- C223.  Deviations from a linear trend relative to the pre-trend, without or with a sign or monotonicity restriction: the reported
interval contains the identified set, each of its ends is in the identified set or is the point estimate, and it is exactly the
identified set if the point estimate belongs to it. -/
theorem C223_sdrm_set (tol : K) (h0 : 0 ≤ tol) (h1 : tol < 1) (p q : ℕ) (hp : 2 ≤ p) (mbar : K) (e : Extra) (beta l : ℕ → K)
    (hne : (IdSet p q {v | v ∈ DeltaSDRM p q mbar ∧ e.Holds p q v} beta l).Nonempty) (rmax rmin : ℤ → Bool → Option K)
    (hlp : LpsOk p q l (sRangeSDRM p) (sdrmFeasible tol p q mbar e beta) rmax rmin) :
    ∃ r, sdrmSet p q beta l rmax rmin = some r ∧
      (∀ θ ∈ IdSet p q {v | v ∈ DeltaSDRM p q mbar ∧ e.Holds p q v} beta l, r.1 ≤ θ ∧ θ ≤ r.2) ∧
      (r.1 = target p q l beta ∨ r.1 ∈ IdSet p q {v | v ∈ DeltaSDRM p q mbar ∧ e.Holds p q v} beta l) ∧
      (r.2 = target p q l beta ∨ r.2 ∈ IdSet p q {v | v ∈ DeltaSDRM p q mbar ∧ e.Holds p q v} beta l) ∧
      (target p q l beta ∈ IdSet p q {v | v ∈ DeltaSDRM p q mbar ∧ e.Holds p q v} beta l →
        ∀ θ, (r.1 ≤ θ ∧ θ ≤ r.2) ↔ θ ∈ IdSet p q {v | v ∈ DeltaSDRM p q mbar ∧ e.Holds p q v} beta l) := by
  obtain ⟨s0, hs0, hmax⟩ := D2_max p hp (full p beta)
  have href : (s0 : ℤ) + 2 - p ∈ sRangeSDRM p := by
    unfold sRangeSDRM
    simp only [List.mem_map, List.mem_range]
    exact ⟨s0, by omega, by ring⟩
  obtain ⟨r, hr⟩ := unionSet_some (target p q l beta) (sRangeSDRM p) (List.ne_nil_of_mem href) rmax rmin
  refine ⟨r, hr, ?_⟩
  have exact_piece : ∀ s ∈ sRangeSDRM p, ∀ b, ∀ s' : ℕ, s' + 2 ≤ p → (p : ℤ) + s - 2 = s' →
      (∀ r, r + 2 ≤ p → |D2 (full p beta) r| ≤ sgn b * D2 (full p beta) s') →
      ∀ θ, ((bounds (target p q l beta) (rmax s b) (rmin s b)).1 ≤ θ ∧ θ ≤ (bounds (target p q l beta) (rmax s b) (rmin s b)).2) ↔
        θ ∈ IdSet p q {v | v ∈ DeltaSDRM p q mbar ∧ e.Holds p q v} beta l := by
    intro s hs b s' hs' heq hb θ
    have hS : sdrmFeasible tol p q mbar e beta s b =
        {v | v ∈ {v | v ∈ DeltaSDRM p q mbar ∧ e.Holds p q v} ∧ ∀ j < p, v j = beta j} := by
      rw [sdrm_piece tol h0 h1 p q (by omega) mbar e beta s s' hs' heq b]
      ext v
      constructor
      · rintro ⟨⟨ha, he⟩, hv⟩
        exact ⟨⟨(sdrm_piece_doc p q mbar beta s' hs' b hb v hv).1 ha, he⟩, hv⟩
      · rintro ⟨⟨ha, he⟩, hv⟩
        exact ⟨⟨(sdrm_piece_doc p q mbar beta s' hs' b hb v hv).2 ha, he⟩, hv⟩
    refine exact_of p q beta l _ _ hS (feasibleWith_conv p q _ 0 _ beta) ?_ _ _ (hlp s hs b).1 (hlp s hs b).2 hne θ
    refine sd_bounded p q (by omega) l _ beta (mbar * (sgn b * D2 (full p beta) s')) (fun v hv => hv.2) ?_
    intro v hv t ht1 ht2
    rw [sdrm_piece tol h0 h1 p q (by omega) mbar e beta s s' hs' heq b] at hv
    have := hv.1.1.2 t ht1 ht2
    rwa [D2_pre p v beta hv.2 s' hs'] at this
  refine union_exact p q l beta _ (sRangeSDRM p) rmax rmin r hr ?_ ?_ hne
  · intro s hs b
    obtain ⟨s', hs', heq⟩ := sRangeSDRM_ref p s hs
    by_cases hb : ∀ r, r + 2 ≤ p → |D2 (full p beta) r| ≤ sgn b * D2 (full p beta) s'
    · exact Or.inl (exact_piece s hs b s' hs' heq hb)
    · right
      refine bounds_empty p q _ l _ _ _ (hlp s hs b).1 (hlp s hs b).2 ?_
      rw [sdrm_piece tol h0 h1 p q (by omega) mbar e beta s s' hs' heq b, Set.eq_empty_iff_forall_notMem]
      rintro v ⟨⟨ha, _⟩, hv⟩
      refine hb fun r hr => ?_
      have := ha.1 r hr
      rwa [D2_pre p v beta hv r hr, D2_pre p v beta hv s' hs'] at this
  · refine ⟨(s0 : ℤ) + 2 - p, href, decide (0 ≤ D2 (full p beta) s0), exact_piece _ href _ s0 hs0 (by ring) ?_⟩
    intro r hr
    refine (hmax r hr).trans (le_of_eq ?_)
    by_cases h : 0 ≤ D2 (full p beta) s0
    · simp [sgn, h, abs_of_nonneg h]
    · have := abs_of_neg (lt_of_not_ge h)
      simp [sgn, h, this]

/-- C223 (violated).  As soon as the pre-treatment coefficients are not exactly linear, the point estimate (zero bias) is reported as a
possible effect, whether or not zero bias is compatible with the restriction: the linear program of the wrong sign is infeasible and is
replaced by the point estimate. -/
theorem C223_sdrm_point_violated (tol : K) (h0 : 0 ≤ tol) (h1 : tol < 1) (p q : ℕ) (mbar : K) (e : Extra) (beta l : ℕ → K)
    (hcurve : ∃ r, r + 2 ≤ p ∧ D2 (full p beta) r ≠ 0) (rmax rmin : ℤ → Bool → Option K)
    (hlp : LpsOk p q l (sRangeSDRM p) (sdrmFeasible tol p q mbar e beta) rmax rmin) :
    ∃ r, sdrmSet p q beta l rmax rmin = some r ∧ r.1 ≤ target p q l beta ∧ target p q l beta ≤ r.2 := by
  obtain ⟨s0, hs0, hne⟩ := hcurve
  have href : (s0 : ℤ) + 2 - p ∈ sRangeSDRM p := by
    unfold sRangeSDRM
    simp only [List.mem_map, List.mem_range]
    exact ⟨s0, by omega, by ring⟩
  obtain ⟨r, hr⟩ := unionSet_some (target p q l beta) (sRangeSDRM p) (List.ne_nil_of_mem href) rmax rmin
  refine ⟨r, hr, ?_⟩
  obtain ⟨hin, -, -⟩ := unionSet_spec _ _ _ _ _ hr
  have hb := bounds_empty p q _ l (target p q l beta) _ _ (hlp _ href (decide (D2 (full p beta) s0 < 0))).1
    (hlp _ href (decide (D2 (full p beta) s0 < 0))).2 (by
      rw [sdrm_piece tol h0 h1 p q (by omega) mbar e beta _ s0 hs0 (by ring), Set.eq_empty_iff_forall_notMem]
      rintro v ⟨⟨ha, _⟩, hv⟩
      have h3 := ha.1 s0 hs0
      rw [D2_pre p v beta hv s0 hs0] at h3
      have h4 : 0 < |D2 (full p beta) s0| := abs_pos.2 hne
      by_cases h : D2 (full p beta) s0 < 0
      · have hs : (sgn (decide (D2 (full p beta) s0 < 0)) : K) = 1 := by simp [sgn, h]
        rw [hs, one_mul] at h3
        linarith
      · have hs : (sgn (decide (D2 (full p beta) s0 < 0)) : K) = -1 := by simp [sgn, h]
        rw [hs] at h3
        linarith [not_lt.1 h])
  have h2 := hin _ href (decide (D2 (full p beta) s0 < 0))
  rw [hb] at h2
  exact h2

end Verif.Honest
