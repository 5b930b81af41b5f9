import Verif.Honest.FlciRun
import Verif.Honest.Trunc
import Verif.Honest.ArpModel
import Verif.Honest.GaussEx

/-!
# C172, C173: the inputs of `honest_did` and the original confidence interval

Model of `didhonest/honest_did.py:203-317` and `didhonest/sensitivity.py:550-663`.
-/

set_option linter.unusedSectionVars false
set_option linter.unusedSimpArgs false

namespace Verif.Honest

open Finset MeasureTheory ProbabilityTheory

/-! ## Model -/

/-- One event time of an event study: `event_times[i]`, `att_by_event[i]` and the column `influence_func[:, i]`.  (Simplification: the
three arrays have the same length and event times are integers.) -/
structure EsCol where
  time : ℤ
  att : ℝ
  inf : ℕ → ℝ

/-- `len(x) > 1 and not np.all(np.diff(x) == 1)` is false, `honest_did.py:266,271`. -/
def Consec (l : List ℤ) : Prop := l.IsChain fun a b => b - a = 1

instance (l : List ℤ) : Decidable (Consec l) := by unfold Consec; infer_instance

/-- What is handed to the sensitivity analysis: `num_pre_periods`, `num_post_periods`, `att_no_ref`, `vcov_matrix`, `l_vec`. -/
structure HonestInput where
  p : ℕ
  q : ℕ
  beta : ℕ → ℝ
  sigma : ℕ → ℕ → ℝ
  l : ℕ → ℝ

/-- `_honest_did_aggte`, `honest_did.py:245-308`; `none` is a raised exception.  `n` is the number of rows of the influence function
(a matrix; `hasInf = false` stands for a missing or one-dimensional one). -/
noncomputable def honestInput (dynamic hasInf : Bool) (n : ℕ) (cols : List EsCol) (eventTime : ℤ) : Option HonestInput :=
  let pre := (cols.filter fun c => decide (c.time < -1)).map EsCol.time
  let post := (cols.filter fun c => decide (-1 < c.time)).map EsCol.time
  if dynamic = false ∨ hasInf = false ∨ ¬Consec pre ∨ ¬Consec post then none
  else
    let rest := cols.eraseP fun c => decide (c.time = -1)
    let p := rest.countP fun c => decide (c.time < -1)
    let q := rest.length - p
    let postTimes := (rest.drop p).map EsCol.time
    if p = 0 ∨ q = 0 ∨ eventTime ∉ postTimes then none
    else
      let col := fun j => (rest[j]?.map EsCol.inf).getD fun _ => 0
      some
        { p := p
          q := q
          beta := fun j => (rest[j]?.map EsCol.att).getD 0
          sigma := fun i j => (∑ u ∈ range n, col i u * col j u) / (n * n)
          l := fun k => if k = postTimes.idxOf eventTime then 1 else 0 }

/-- `construct_original_cs`, `sensitivity.py:651-663`. -/
noncomputable def originalCs (p q : ℕ) (betahat : ℕ → ℝ) (sigma : ℕ → ℕ → ℝ) (l : ℕ → ℝ) (alpha : ℝ) : ℝ × ℝ :=
  let se := Real.sqrt (∑ i ∈ range q, ∑ j ∈ range q, l i * sigma (p + i) (p + j) * l j)
  let est := ∑ k ∈ range q, l k * betahat (p + k)
  (est - ppf (1 - alpha / 2) * se, est + ppf (1 - alpha / 2) * se)

/-! ## Specification -/

/-- The estimate and the influence values of the event time `t`. -/
noncomputable def attAt (cols : List EsCol) (t : ℤ) : ℝ := ((cols.find? fun c => decide (c.time = t)).map EsCol.att).getD 0

@[inherit_doc attAt]
noncomputable def infAt (cols : List EsCol) (t : ℤ) : ℕ → ℝ := ((cols.find? fun c => decide (c.time = t)).map EsCol.inf).getD fun _ => 0

/-- Event times in ascending order without repetitions. -/
def Ascending (cols : List EsCol) : Prop := cols.Pairwise fun a b => a.time < b.time

/-! ## Lemmas -/

theorem ascending_split (cols : List EsCol) (h : Ascending cols) (c : ℤ) :
    cols = (cols.filter fun x => decide (x.time < c)) ++ cols.filter fun x => decide (c ≤ x.time) := by
  induction cols with
  | nil => rfl
  | cons a t ih =>
    obtain ⟨h1, h2⟩ := List.pairwise_cons.1 h
    by_cases hc : a.time < c
    · rw [List.filter_cons_of_pos (by simpa using hc), List.filter_cons_of_neg (by simpa using hc), List.cons_append, ← ih h2]
    · have e1 : (t.filter fun x => decide (x.time < c)) = [] := by
        rw [List.filter_eq_nil_iff]
        intro x hx
        have := h1 x hx
        simp only [decide_eq_true_eq]
        omega
      rw [List.filter_cons_of_neg (by simpa using hc), List.filter_cons_of_pos (by simp; omega), e1, List.nil_append]
      congr 1
      have := ih h2
      rw [e1, List.nil_append] at this
      exact this

theorem erase_ref (cols : List EsCol) (h : Ascending cols) :
    cols.eraseP (fun c => decide (c.time = -1)) = (cols.filter fun c => decide (c.time < -1)) ++ cols.filter fun c => decide (-1 < c.time) := by
  induction cols with
  | nil => rfl
  | cons a t ih =>
    obtain ⟨h1, h2⟩ := List.pairwise_cons.1 h
    by_cases ha : a.time = -1
    · rw [List.eraseP_cons_of_pos (by simpa using ha), List.filter_cons_of_neg (by simp; omega), List.filter_cons_of_neg (by simp; omega)]
      have e1 : (t.filter fun x => decide (x.time < -1)) = [] := by
        rw [List.filter_eq_nil_iff]
        intro x hx
        have := h1 x hx
        simp only [decide_eq_true_eq]
        omega
      have e2 : (t.filter fun x => decide (-1 < x.time)) = t := by
        rw [List.filter_eq_self]
        intro x hx
        have := h1 x hx
        simp only [decide_eq_true_eq]
        omega
      rw [e1, e2, List.nil_append]
    · rw [List.eraseP_cons_of_neg (by simpa using ha), ih h2]
      by_cases hl : a.time < -1
      · rw [List.filter_cons_of_pos (by simpa using hl), List.filter_cons_of_neg (by simp; omega), List.cons_append]
      · have e1 : (t.filter fun x => decide (x.time < -1)) = [] := by
          rw [List.filter_eq_nil_iff]
          intro x hx
          have := h1 x hx
          simp only [decide_eq_true_eq]
          omega
        rw [List.filter_cons_of_neg (by simpa using hl), List.filter_cons_of_pos (by simp; omega), e1, List.nil_append, List.nil_append]

theorem consec_get (L : List EsCol) (h : Consec (L.map EsCol.time)) (a : EsCol) (ha : L[0]? = some a) (k : ℕ) (c : EsCol)
    (hk : L[k]? = some c) : c.time = a.time + k := by
  induction k generalizing L a with
  | zero =>
    rw [ha] at hk
    cases hk
    simp
  | succ k ih =>
    cases L with
    | nil => simp at ha
    | cons x t =>
      simp only [List.getElem?_cons_zero, Option.some.injEq] at ha
      subst ha
      rw [List.getElem?_cons_succ] at hk
      cases t with
      | nil => simp at hk
      | cons y t =>
        have hc : y.time - x.time = 1 ∧ Consec ((y :: t).map EsCol.time) := by
          unfold Consec at h ⊢
          rw [List.map_cons, List.map_cons, List.isChain_cons_cons] at h
          rw [List.map_cons]
          exact h
        have := ih (y :: t) hc.2 y rfl hk
        push_cast
        omega

theorem find_time (cols : List EsCol) (h : Ascending cols) (c : EsCol) (hc : c ∈ cols) :
    (cols.find? fun x => decide (x.time = c.time)) = some c := by
  induction cols with
  | nil => cases hc
  | cons a t ih =>
    obtain ⟨h1, h2⟩ := List.pairwise_cons.1 h
    rcases List.mem_cons.1 hc with rfl | hc
    · rw [List.find?_cons_of_pos (by simp)]
    · have := h1 c hc
      rw [List.find?_cons_of_neg (by simp; omega)]
      exact ih h2 hc

/-! ## C172 -/

/-- C172.  For event times in ascending order the analysis runs exactly if the aggregation is dynamic with a matrix of influence functions,
there is an estimate before `-1`, the requested event time is among those after `-1`, and the event times before `-1` and those after `-1`
have no gaps. -/
theorem C172_runs (dynamic hasInf : Bool) (n : ℕ) (cols : List EsCol) (h : Ascending cols) (eventTime : ℤ) :
    (∃ r, honestInput dynamic hasInf n cols eventTime = some r) ↔
      dynamic = true ∧ hasInf = true ∧ Consec ((cols.filter fun c => decide (c.time < -1)).map EsCol.time) ∧
        Consec ((cols.filter fun c => decide (-1 < c.time)).map EsCol.time) ∧ (∃ c ∈ cols, c.time < -1) ∧
        -1 < eventTime ∧ ∃ c ∈ cols, c.time = eventTime := by
  set L1 := cols.filter fun c => decide (c.time < -1) with hL1
  set L2 := cols.filter fun c => decide (-1 < c.time) with hL2
  have hcount : (L1 ++ L2).countP (fun c => decide (c.time < -1)) = L1.length := by
    rw [List.countP_append]
    have e1 : L1.countP (fun c => decide (c.time < -1)) = L1.length := by
      rw [List.countP_eq_length]
      intro a ha
      exact (List.mem_filter.1 ha).2
    have e2 : L2.countP (fun c => decide (c.time < -1)) = 0 := by
      rw [List.countP_eq_zero]
      intro a ha
      have := (List.mem_filter.1 ha).2
      simp only [decide_eq_true_eq] at this ⊢
      omega
    rw [e1, e2, add_zero]
  have hmem1 : L1.length ≠ 0 ↔ ∃ c ∈ cols, c.time < -1 := by
    rw [ne_eq, List.length_eq_zero_iff]
    constructor
    · intro h0
      obtain ⟨c, hc⟩ := List.exists_mem_of_ne_nil _ h0
      obtain ⟨hc1, hc2⟩ := List.mem_filter.1 hc
      exact ⟨c, hc1, by simpa using hc2⟩
    · rintro ⟨c, hc, ht⟩ h0
      have : c ∈ L1 := List.mem_filter.2 ⟨hc, by simpa using ht⟩
      rw [h0] at this
      cases this
  have hmem2 : eventTime ∈ L2.map EsCol.time ↔ -1 < eventTime ∧ ∃ c ∈ cols, c.time = eventTime := by
    rw [List.mem_map]
    constructor
    · rintro ⟨c, hc, rfl⟩
      obtain ⟨hc1, hc2⟩ := List.mem_filter.1 hc
      exact ⟨by simpa using hc2, c, hc1, rfl⟩
    · rintro ⟨h0, c, hc, rfl⟩
      exact ⟨c, List.mem_filter.2 ⟨hc, by simpa using h0⟩, rfl⟩
  unfold honestInput
  dsimp only
  rw [erase_ref cols h, ← hL1, ← hL2, hcount, List.length_append, Nat.add_sub_cancel_left, List.drop_left]
  split_ifs with h1 h2
  · constructor
    · rintro ⟨r, hr⟩; cases hr
    · rintro ⟨a, b, c, d, -⟩
      rcases h1 with h1 | h1 | h1 | h1
      · rw [a] at h1; cases h1
      · rw [b] at h1; cases h1
      · exact absurd c h1
      · exact absurd d h1
  · constructor
    · rintro ⟨r, hr⟩; cases hr
    · rintro ⟨-, -, -, -, e, f⟩
      have f' := hmem2.2 f
      rcases h2 with h2 | h2 | h2
      · exact absurd h2 (hmem1.2 e)
      · rw [List.length_eq_zero_iff] at h2
        rw [h2] at f'
        cases f'
      · exact absurd f' h2
  · push Not at h1 h2
    refine ⟨fun _ => ⟨by simpa using h1.1, by simpa using h1.2.1, h1.2.2.1, h1.2.2.2, hmem1.1 h2.1, hmem2.1 h2.2.2⟩, fun _ => ⟨_, rfl⟩⟩

/-- C172.  What the analysis works with, for event times in ascending order: the `p` estimates of consecutive event times ending before
`-1`, then the `q` estimates of consecutive event times starting after `-1`; the estimate at `-1` is not used; the covariance matrix is
that of the influence functions of the same event times, divided by `n^2`; and the target is the effect at the requested event time. -/
theorem C172_values (n : ℕ) (cols : List EsCol) (h : Ascending cols) (eventTime : ℤ) (r : HonestInput)
    (hr : honestInput true true n cols eventTime = some r) :
    ∃ a b : ℤ, a + r.p ≤ -1 ∧ 0 ≤ b ∧ 1 ≤ r.p ∧ 1 ≤ r.q ∧ (b ≤ eventTime ∧ eventTime < b + r.q) ∧
      (∀ t : ℤ, t ≠ -1 → ((∃ c ∈ cols, c.time = t) ↔ (a ≤ t ∧ t < a + r.p) ∨ (b ≤ t ∧ t < b + r.q))) ∧
      (∀ j < r.p + r.q, r.beta j = attAt cols (if j < r.p then a + j else b + (j - r.p))) ∧
      (∀ i < r.p + r.q, ∀ j < r.p + r.q, r.sigma i j =
        (∑ u ∈ range n, infAt cols (if i < r.p then a + i else b + (i - r.p)) u * infAt cols (if j < r.p then a + j else b + (j - r.p)) u) /
          (n * n)) ∧
      ∀ x : ℕ → ℝ, ∑ k ∈ range r.q, r.l k * x k = x (eventTime - b).toNat := by
  set L1 := cols.filter fun c => decide (c.time < -1) with hL1
  set L2 := cols.filter fun c => decide (-1 < c.time) with hL2
  have hcount : (L1 ++ L2).countP (fun c => decide (c.time < -1)) = L1.length := by
    rw [List.countP_append]
    have e1 : L1.countP (fun c => decide (c.time < -1)) = L1.length := by
      rw [List.countP_eq_length]
      intro a ha
      exact (List.mem_filter.1 ha).2
    have e2 : L2.countP (fun c => decide (c.time < -1)) = 0 := by
      rw [List.countP_eq_zero]
      intro a ha
      have := (List.mem_filter.1 ha).2
      simp only [decide_eq_true_eq] at this ⊢
      omega
    rw [e1, e2, add_zero]
  unfold honestInput at hr
  dsimp only at hr
  rw [erase_ref cols h, ← hL1, ← hL2, hcount, List.length_append, Nat.add_sub_cancel_left, List.drop_left] at hr
  by_cases h1 : true = false ∨ true = false ∨ ¬Consec (L1.map EsCol.time) ∨ ¬Consec (L2.map EsCol.time)
  · rw [if_pos h1] at hr; cases hr
  rw [if_neg h1] at hr
  by_cases h2 : L1.length = 0 ∨ L2.length = 0 ∨ eventTime ∉ L2.map EsCol.time
  · rw [if_pos h2] at hr; cases hr
  rw [if_neg h2] at hr
  rw [not_or, not_or, not_or, not_not, not_not] at h1
  rw [not_or, not_or, not_not] at h2
  obtain ⟨-, -, hc1, hc2⟩ := h1
  obtain ⟨hp, hq, he⟩ := h2
  cases hr
  obtain ⟨A, TA, eA⟩ := List.exists_cons_of_ne_nil (l := L1) (fun h0 => hp (by rw [h0]; rfl))
  obtain ⟨B, TB, eB⟩ := List.exists_cons_of_ne_nil (l := L2) (fun h0 => hq (by rw [h0]; rfl))
  have gA : L1[0]? = some A := by rw [eA]; rfl
  have gB : L2[0]? = some B := by rw [eB]; rfl
  have tA : ∀ (k : ℕ) (c : EsCol), L1[k]? = some c → c.time = A.time + k := fun k c => consec_get L1 hc1 A gA k c
  have tB : ∀ (k : ℕ) (c : EsCol), L2[k]? = some c → c.time = B.time + k := fun k c => consec_get L2 hc2 B gB k c
  have mem1 : ∀ c, c ∈ L1 → c ∈ cols ∧ c.time < -1 := fun c hc => by
    obtain ⟨h1, h2⟩ := List.mem_filter.1 hc
    exact ⟨h1, by simpa using h2⟩
  have mem2 : ∀ c, c ∈ L2 → c ∈ cols ∧ -1 < c.time := fun c hc => by
    obtain ⟨h1, h2⟩ := List.mem_filter.1 hc
    exact ⟨h1, by simpa using h2⟩
  have get1 : ∀ k, (hk : k < L1.length) → ∃ c, L1[k]? = some c ∧ c ∈ L1 := fun k hk => ⟨L1[k], List.getElem?_eq_getElem hk, List.getElem_mem hk⟩
  have get2 : ∀ k, (hk : k < L2.length) → ∃ c, L2[k]? = some c ∧ c ∈ L2 := fun k hk => ⟨L2[k], List.getElem?_eq_getElem hk, List.getElem_mem hk⟩
  -- position `j` of the concatenation
  have pos : ∀ j, j < L1.length + L2.length → ∃ c ∈ cols, (L1 ++ L2)[j]? = some c ∧
      c.time = if j < L1.length then A.time + (j : ℤ) else B.time + ((j : ℤ) - L1.length) := by
    intro j hj
    by_cases hj1 : j < L1.length
    · obtain ⟨c, hc, hm⟩ := get1 j hj1
      refine ⟨c, (mem1 c hm).1, by rw [List.getElem?_append_left hj1]; exact hc, ?_⟩
      rw [if_pos hj1]
      exact tA j c hc
    · obtain ⟨c, hc, hm⟩ := get2 (j - L1.length) (by omega)
      refine ⟨c, (mem2 c hm).1, by rw [List.getElem?_append_right (by omega)]; exact hc, ?_⟩
      rw [if_neg hj1, tB _ c hc, Nat.cast_sub (by omega)]
  obtain ⟨k0, hk0, e0⟩ := List.getElem_of_mem he
  rw [List.length_map] at hk0
  rw [List.getElem_map] at e0
  have e0' := tB k0 _ (List.getElem?_eq_getElem hk0)
  have nd : (L2.map EsCol.time).Nodup := by
    refine (List.Pairwise.map (R := fun a b : EsCol => a.time < b.time) EsCol.time (fun a b hab => hab.ne) (h.sublist (List.filter_sublist)))
  have hidx : (L2.map EsCol.time).idxOf eventTime = k0 := by
    have := List.Nodup.idxOf_getElem nd k0 (by rw [List.length_map]; exact hk0)
    rw [List.getElem_map, e0] at this
    exact this
  refine ⟨A.time, B.time, ?_, ?_, ?_, ?_, ?_, ?_, ?_, ?_, ?_⟩
  · show A.time + (L1.length : ℤ) ≤ -1
    obtain ⟨c, hc, hm⟩ := get1 (L1.length - 1) (by omega)
    have := tA _ c hc
    have := (mem1 c hm).2
    omega
  · have := (mem2 B (by rw [eB]; exact List.mem_cons_self)).2
    omega
  · show 1 ≤ L1.length
    omega
  · show 1 ≤ L2.length
    omega
  · show B.time ≤ eventTime ∧ eventTime < B.time + (L2.length : ℤ)
    omega
  · intro t ht
    show _ ↔ (A.time ≤ t ∧ t < A.time + (L1.length : ℤ)) ∨ (B.time ≤ t ∧ t < B.time + (L2.length : ℤ))
    constructor
    · rintro ⟨c, hc, rfl⟩
      by_cases hlt : c.time < -1
      · left
        obtain ⟨k, hk, e⟩ := List.getElem_of_mem (List.mem_filter.2 ⟨hc, by simpa using hlt⟩ : c ∈ L1)
        have hk' : k < L1.length := hk
        have := tA k _ (List.getElem?_eq_getElem hk)
        rw [e] at this
        omega
      · right
        obtain ⟨k, hk, e⟩ := List.getElem_of_mem (List.mem_filter.2 ⟨hc, by simp; omega⟩ : c ∈ L2)
        have hk' : k < L2.length := hk
        have := tB k _ (List.getElem?_eq_getElem hk)
        rw [e] at this
        omega
    · rintro (⟨h1, h2⟩ | ⟨h1, h2⟩)
      · obtain ⟨c, hc, hm⟩ := get1 (t - A.time).toNat (by omega)
        exact ⟨c, (mem1 c hm).1, by rw [tA _ c hc]; omega⟩
      · obtain ⟨c, hc, hm⟩ := get2 (t - B.time).toNat (by omega)
        exact ⟨c, (mem2 c hm).1, by rw [tB _ c hc]; omega⟩
  · intro j hj
    obtain ⟨c, hc, hg, ht⟩ := pos j hj
    show ((L1 ++ L2)[j]?.map EsCol.att).getD 0 = attAt cols (if j < L1.length then A.time + (j : ℤ) else B.time + ((j : ℤ) - (L1.length : ℤ)))
    rw [← ht, attAt, find_time cols h c hc, hg]
  · intro i hi j hj
    obtain ⟨c, hc, hg, ht⟩ := pos i hi
    obtain ⟨c', hc', hg', ht'⟩ := pos j hj
    show (∑ u ∈ range n, ((L1 ++ L2)[i]?.map EsCol.inf).getD (fun _ => 0) u * ((L1 ++ L2)[j]?.map EsCol.inf).getD (fun _ => 0) u) / (n * n) =
      (∑ u ∈ range n, infAt cols (if i < L1.length then A.time + (i : ℤ) else B.time + ((i : ℤ) - (L1.length : ℤ))) u *
        infAt cols (if j < L1.length then A.time + (j : ℤ) else B.time + ((j : ℤ) - (L1.length : ℤ))) u) / (n * n)
    rw [← ht, ← ht', infAt, infAt, find_time cols h c hc, find_time cols h c' hc', hg, hg']
  · intro x
    show ∑ k ∈ range L2.length, (if k = (L2.map EsCol.time).idxOf eventTime then 1 else 0) * x k = x (eventTime - B.time).toNat
    rw [hidx, Finset.sum_eq_single k0]
    · rw [if_pos rfl, one_mul]
      congr 1
      omega
    · intro k _ hk
      rw [if_neg hk, zero_mul]
    · intro hn
      exact absurd (mem_range.2 hk0) hn

/-- C172 (violation).  A gap next to the reference period is not noticed: with estimates at `-4, -3, -1, 0` the analysis runs and treats
`-3` as adjacent to `-1`.  A violation that is exactly linear in event time is then not in the smoothness class with bound zero. -/
theorem C172_gap_violated (x : ℤ → ℝ) (y : ℤ → ℕ → ℝ) (n : ℕ) :
    ∃ r, honestInput true true n [⟨-4, x (-4), y (-4)⟩, ⟨-3, x (-3), y (-3)⟩, ⟨-1, x (-1), y (-1)⟩, ⟨0, x 0, y 0⟩] 0 = some r ∧
      r.p = 2 ∧ r.q = 1 ∧ (∀ j < 3, r.beta j = [x (-4), x (-3), x 0].getD j 0) ∧
      ((∀ t, x t = t + 1) → r.beta ∉ DeltaSD r.p r.q 0) := by
  refine ⟨_, rfl, rfl, rfl, ?_, ?_⟩
  · intro j hj
    interval_cases j <;> rfl
  · intro hx h
    have := h 0 (show 0 + 2 ≤ 2 + 1 by norm_num)
    have e : D2 (full 2 fun j => (([⟨-4, x (-4), y (-4)⟩, ⟨-3, x (-3), y (-3)⟩, ⟨0, x 0, y 0⟩] : List EsCol)[j]?.map EsCol.att).getD 0) 0 =
        x (-4) - 2 * x (-3) + 0 := rfl
    have h2 : |x (-4) - 2 * x (-3) + 0| ≤ 0 := by rw [← e]; exact this
    rw [hx, hx] at h2
    norm_num at h2

/-- Five event times with the reference period: the analysis of event time 1 uses the estimates at `-3, -2, 0, 1`. -/
example (x : ℤ → ℝ) (y : ℤ → ℕ → ℝ) (n : ℕ) :
    (∃ r, honestInput true true n ([-3, -2, -1, 0, 1].map fun t => ⟨t, x t, y t⟩) 1 = some r ∧ r.p = 2 ∧ r.q = 2 ∧ r.beta 3 = x 1 ∧
      ∑ k ∈ range 2, r.l k * r.beta (2 + k) = x 1) ∧
    ¬ ∃ r, honestInput true true n ([-3, -2, -1, 0, 1].map fun t => ⟨t, x t, y t⟩) 2 = some r := by
  have hasc : Ascending ([-3, -2, -1, 0, 1].map fun t => (⟨t, x t, y t⟩ : EsCol)) := by
    simp [Ascending]
  constructor
  · refine ⟨_, rfl, rfl, rfl, rfl, ?_⟩
    rw [sum_range_succ, sum_range_one]
    show (0 : ℝ) * _ + 1 * x 1 = x 1
    ring
  · rw [C172_runs _ _ _ _ hasc]
    rintro ⟨-, -, -, -, -, -, c, hc, ht⟩
    simp only [List.map_cons, List.map_nil, List.mem_cons, List.not_mem_nil, or_false] at hc
    rcases hc with rfl | rfl | rfl | rfl | rfl <;> simp at ht

/-! ## C173 -/

variable {Ω : Type*} [MeasurableSpace Ω]

/-- The estimator behind the original interval: `l` on the post-treatment coefficients. -/
def postVec (p : ℕ) (l : ℕ → ℝ) (j : ℕ) : ℝ := if j < p then 0 else l (j - p)

theorem postVec_dot (p q : ℕ) (l v : ℕ → ℝ) : ∑ j ∈ range (p + q), postVec p l j * v j = ∑ k ∈ range q, l k * v (p + k) := by
  rw [sum_range_add]
  have e1 : ∑ j ∈ range p, postVec p l j * v j = 0 := sum_eq_zero fun j hj => by rw [postVec, if_pos (mem_range.1 hj), zero_mul]
  rw [e1, zero_add]
  refine sum_congr rfl fun k _ => ?_
  rw [postVec, if_neg (by omega), Nat.add_sub_cancel_left]

theorem postVec_quad (p q : ℕ) (l : ℕ → ℝ) (sigma : ℕ → ℕ → ℝ) :
    quadForm (p + q) (postVec p l) sigma = ∑ i ∈ range q, ∑ j ∈ range q, l i * sigma (p + i) (p + j) * l j := by
  unfold quadForm
  have e1 : ∀ i, ∑ j ∈ range (p + q), postVec p l i * sigma i j * postVec p l j =
      postVec p l i * ∑ k ∈ range q, l k * sigma i (p + k) := by
    intro i
    rw [← postVec_dot p q l (sigma i), mul_sum]
    exact sum_congr rfl fun j _ => by ring
  simp only [e1]
  rw [postVec_dot p q l fun i => ∑ k ∈ range q, l k * sigma i (p + k)]
  refine sum_congr rfl fun i _ => ?_
  rw [mul_sum]
  exact sum_congr rfl fun j _ => by ring

theorem original_eq (p q : ℕ) (betahat : ℕ → ℝ) (sigma : ℕ → ℕ → ℝ) (l : ℕ → ℝ) (alpha : ℝ) :
    originalCs p q betahat sigma l alpha = flciOf p q (postVec p l) betahat
      (ppf (1 - alpha / 2) * Real.sqrt (∑ i ∈ range q, ∑ j ∈ range q, l i * sigma (p + i) (p + j) * l j)) := by
  unfold originalCs flciOf dotN
  rw [postVec_dot]

theorem original_bias (p q : ℕ) (l δ τ : ℕ → ℝ) : estBias p q (postVec p l) l δ τ = ∑ k ∈ range q, l k * δ (p + k) := by
  unfold estBias thetaOf
  rw [postVec_dot, ← sum_sub_distrib]
  refine sum_congr rfl fun k _ => ?_
  rw [betaOf, if_neg (by omega), Nat.add_sub_cancel_left]
  ring

theorem ppf_half (alpha : ℝ) (ha0 : 0 < alpha) (ha1 : alpha < 1) : 0 < ppf (1 - alpha / 2) := by
  rw [lt_ppf _ _ (by linarith) (by linarith), phi_zero]
  linarith

theorem abs_level (alpha s : ℝ) (ha0 : 0 < alpha) (ha1 : alpha < 1) (hs : 0 < s) : absNormal 0 s (ppf (1 - alpha / 2) * s) = 1 - alpha := by
  have hz := ppf_half alpha ha0 ha1
  rw [absNormal_eq _ _ _ hs (mul_pos hz hs).le]
  unfold foldedCdf
  have e1 : (ppf (1 - alpha / 2) * s - 0) / s = ppf (1 - alpha / 2) := by field_simp; ring
  have e2 : (-(ppf (1 - alpha / 2) * s) - 0) / s = -ppf (1 - alpha / 2) := by field_simp; ring
  rw [e1, e2, phi_neg, phi_ppf _ (by linarith) (by linarith)]
  ring

/-- C173.  The original interval: if the post-treatment coefficients are not biased for the target (`sum l_k delta_k = 0`, in particular
under parallel trends), it covers with probability exactly `1 - alpha`; under any violation of parallel trends the probability is at most
`1 - alpha`. -/
theorem C173_coverage (P : Measure Ω) (p q : ℕ) (betaHat : Ω → ℕ → ℝ) (sigma : ℕ → ℕ → ℝ) (l δ τ : ℕ → ℝ) (alpha : ℝ)
    (hG : GaussianCoefs P (p + q) betaHat (betaOf p δ τ) sigma)
    (hv : 0 < ∑ i ∈ range q, ∑ j ∈ range q, l i * sigma (p + i) (p + j) * l j) (ha0 : 0 < alpha) (ha1 : alpha < 1) :
    ((∑ k ∈ range q, l k * δ (p + k)) = 0 →
      P.real {ω | thetaOf q l τ ∈ Set.Icc (originalCs p q (betaHat ω) sigma l alpha).1 (originalCs p q (betaHat ω) sigma l alpha).2} = 1 - alpha) ∧
    P.real {ω | thetaOf q l τ ∈ Set.Icc (originalCs p q (betaHat ω) sigma l alpha).1 (originalCs p q (betaHat ω) sigma l alpha).2} ≤ 1 - alpha := by
  have hs : 0 < Real.sqrt (∑ i ∈ range q, ∑ j ∈ range q, l i * sigma (p + i) (p + j) * l j) := Real.sqrt_pos.2 hv
  have key := cover_eq P p q betaHat sigma δ τ l (postVec p l)
    (ppf (1 - alpha / 2) * Real.sqrt (∑ i ∈ range q, ∑ j ∈ range q, l i * sigma (p + i) (p + j) * l j)) _ hG
    (by rw [postVec_quad, Real.sq_sqrt hv.le])
  simp only [← original_eq, original_bias] at key
  rw [key]
  refine ⟨fun h0 => by rw [h0, abs_level alpha _ ha0 ha1 hs], ?_⟩
  rw [← abs_level alpha _ ha0 ha1 hs]
  exact absNormal_anti _ _ (mul_pos (ppf_half alpha ha0 ha1) hs).le hs _ _ (by rw [abs_zero]; exact abs_nonneg _)

/-- C173.  The interval is centred at the estimate and does not depend on the pre-treatment coefficients. -/
theorem C173_centre (p q : ℕ) (b b' : ℕ → ℝ) (sigma : ℕ → ℕ → ℝ) (l : ℕ → ℝ) (alpha : ℝ) (h : ∀ k < q, b (p + k) = b' (p + k)) :
    ((originalCs p q b sigma l alpha).1 + (originalCs p q b sigma l alpha).2) / 2 = ∑ k ∈ range q, l k * b (p + k) ∧
      originalCs p q b sigma l alpha = originalCs p q b' sigma l alpha := by
  unfold originalCs
  have e : ∑ k ∈ range q, l k * b (p + k) = ∑ k ∈ range q, l k * b' (p + k) :=
    sum_congr rfl fun k hk => by rw [h k (mem_range.1 hk)]
  refine ⟨by dsimp only; ring, by rw [e]⟩

/-- One pre- and one post-treatment coefficient with correlated errors: exact coverage under parallel trends, at most the nominal one with
a violation of 3. -/
example : (stdNormals 2).real {z | (5 : ℝ) ∈ Set.Icc
      (originalCs 1 1 (gaussOf 2 (betaOf 1 (fun _ => 0) fun _ => 5) (fun j r => if r.val ≤ j then 1 else 0) z)
        (covOf 2 fun j r => if r.val ≤ j then 1 else 0) (fun _ => 1) (1 / 20)).1
      (originalCs 1 1 (gaussOf 2 (betaOf 1 (fun _ => 0) fun _ => 5) (fun j r => if r.val ≤ j then 1 else 0) z)
        (covOf 2 fun j r => if r.val ≤ j then 1 else 0) (fun _ => 1) (1 / 20)).2} = 19 / 20 := by
  have h := (C173_coverage (stdNormals 2) 1 1 _ (covOf 2 fun j r => if r.val ≤ j then 1 else 0) (fun _ => 1) (fun _ => 0) (fun _ => 5) (1 / 20)
    (gauss_exists 2 2 (betaOf 1 (fun _ => 0) fun _ => 5) fun j r => if r.val ≤ j then 1 else 0) (by norm_num [covOf, Fin.sum_univ_two])
    (by norm_num) (by norm_num)).1 (by simp)
  have e : thetaOf 1 (fun _ => (1 : ℝ)) (fun _ => 5) = 5 := by simp [thetaOf]
  rw [e] at h
  rw [h]
  norm_num

end Verif.Honest
