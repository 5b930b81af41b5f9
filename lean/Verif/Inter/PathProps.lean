import Verif.Inter.Path
import Mathlib.Algebra.Order.Ring.Rat
import Mathlib.Tactic.NormNum

/-!
# C55 (switch timing) and C56 (bidirectional switchers)
-/

set_option linter.unusedSectionVars false
set_option linter.unusedSimpArgs false

namespace Verif.Inter

variable {K : Type*} [Ring K] [LinearOrder K] [IsOrderedRing K]

/-! ## Specification -/

/-- Periods are strictly increasing. -/
def Sorted (path : List (Obs K)) : Prop := path.Pairwise fun a b => a.t < b.t

/-- A path without missing treatments, given by period and treatment. -/
def complete (l : List (ℤ × K)) : List (Obs K) := l.map fun p => ⟨p.1, some p.2⟩

/-- `t` is the first period whose treatment differs from the one before; up to there the treatment is the initial one. -/
def FirstChange (l : List (ℤ × K)) (t : ℤ) (before after : K) : Prop :=
  ∃ pre post p, l = pre ++ p :: (t, after) :: post ∧ (∀ q ∈ pre ++ [p], q.2 = before) ∧ after ≠ before

/-- The treatment never changes. -/
def Constant (l : List (ℤ × K)) : Prop := ∀ p ∈ l, ∀ q ∈ l, p.2 = q.2

/-- Both above and below the initial treatment at some point. -/
def Crosses (b : K) (l : List (ℤ × K)) : Prop := (∃ p ∈ l, b < p.2) ∧ ∃ p ∈ l, p.2 < b

/-! ## Lemmas -/

lemma diffs_fst (prev : Option K) (l : List (Obs K)) : (diffs prev l).map Prod.fst = l := by
  induction l generalizing prev with
  | nil => rfl
  | cons o os ih => simp [diffs, ih]

/-- Rows of a path that starts at the treatment `b` and does not change. -/
lemma diffs_const (b : K) : ∀ (l : List (ℤ × K)) (hl : ∀ q ∈ l, q.2 = b),
    (diffs (some b) (complete l)).filter switches = []
  | [], _ => rfl
  | q :: l, hl => by
    have hq := hl q (List.mem_cons_self ..)
    have ih := diffs_const b l fun x hx => hl x (List.mem_cons_of_mem _ hx)
    unfold complete at ih ⊢
    simp only [List.map_cons, diffs, sub?, hq, sub_self]
    rw [List.filter_cons_of_neg (by simp [switches])]
    exact ih

/-- The first non-zero change. -/
lemma diffs_change (b : K) (t : ℤ) (a : K) (ha : a ≠ b) (post : List (ℤ × K)) : ∀ (l : List (ℤ × K)) (hl : ∀ q ∈ l, q.2 = b),
    (diffs (some b) (complete (l ++ (t, a) :: post))).filter switches =
      (⟨t, some a⟩, some (a - b)) :: (diffs (some a) (complete post)).filter switches
  | [], _ => by
    unfold complete
    simp only [List.nil_append, List.map_cons, diffs, sub?]
    rw [List.filter_cons_of_pos (by simp [switches, sub_ne_zero, ha])]
  | q :: l, hl => by
    have hq := hl q (List.mem_cons_self ..)
    have ih := diffs_change b t a ha post l fun x hx => hl x (List.mem_cons_of_mem _ hx)
    unfold complete at ih ⊢
    simp only [List.cons_append, List.map_cons, diffs, sub?, hq, sub_self]
    rw [List.filter_cons_of_neg (by simp [switches])]
    exact ih

/-- Periods of rows kept by a filter stay sorted, so the minimum is the first. -/
lemma min_head {l : List ℤ} (h : l.Pairwise (· < ·)) : l.min? = l.head? := by
  cases l with
  | nil => rfl
  | cons a l =>
    rw [List.head?_cons, List.min?_eq_some_iff]
    refine ⟨List.mem_cons_self .., fun b hb => ?_⟩
    rcases List.mem_cons.1 hb with rfl | hb
    · exact le_refl _
    · exact ((List.pairwise_cons.1 h).1 b hb).le

lemma diffs_sorted (prev : Option K) {path : List (Obs K)} (h : Sorted path) :
    ((diffs prev path).map fun x => x.1.t).Pairwise (· < ·) := by
  have : ((diffs prev path).map fun x => x.1.t) = ((diffs prev path).map Prod.fst).map Obs.t := by
    rw [List.map_map]; rfl
  rw [this, diffs_fst]
  exact List.pairwise_map.2 h

lemma firstSwitch_head {rows : List (Obs K × Option K)} (h : (rows.map fun x => x.1.t).Pairwise (· < ·)) :
    firstSwitch rows = ((rows.filter switches).head?).map fun x => x.1.t := by
  unfold firstSwitch
  rw [min_head, List.head?_map]
  exact List.pairwise_map.2 ((List.pairwise_map.1 h).filter _)

lemma complete_sorted {l : List (ℤ × K)} (h : l.Pairwise fun a b => a.1 < b.1) : Sorted (complete l) := by
  unfold Sorted complete
  exact List.pairwise_map.2 h

lemma filter_none_const {path : List (Obs K)} {o : Obs K} :
    (diffs none (o :: path)).filter switches = (diffs o.d path).filter switches := by
  simp only [diffs, sub?]
  rw [List.filter_cons_of_neg (by simp [switches])]

lemma baseline_head {path : List (Obs K)} {o : Obs K} (h : Sorted (o :: path)) : baseline (o :: path) = o.d := by
  have hm : ((o :: path).map Obs.t).min? = some o.t := by
    rw [min_head (List.pairwise_map.2 h)]; rfl
  unfold baseline firstRow
  rw [hm]
  simp

/-- The rows kept by default, as a sublist, and in relation to the original ones. -/
lemma dropCrossed_sublist (b : Option K) : ∀ (u v : Bool) (l : List (Obs K × Option K)), (dropCrossed b u v l).Sublist l
  | _, _, [] => List.Sublist.refl _
  | u, v, x :: xs => by
    unfold dropCrossed
    simp only
    split_ifs
    · exact (dropCrossed_sublist b _ _ xs).cons _
    · exact (dropCrossed_sublist b _ _ xs).cons_cons _

/-- Once both indicators are set nothing is kept. -/
lemma dropCrossed_tt (b : Option K) : ∀ (l : List (Obs K × Option K)), dropCrossed b true true l = []
  | [] => rfl
  | x :: xs => by
    unfold dropCrossed
    simp only [Bool.true_or, Bool.and_self, if_true]
    exact dropCrossed_tt b xs

/-- Running indicators after the rows `l`. -/
def upAfter (b : Option K) (u : Bool) (l : List (Obs K)) : Bool := u || l.any fun o => above b o.d
def downAfter (b : Option K) (v : Bool) (l : List (Obs K)) : Bool := v || l.any fun o => below b o.d

/-- The rows kept are the longest prefix on which the two indicators are not both set. -/
lemma dropCrossed_prefix (b : Option K) : ∀ (l : List (Obs K × Option K)) (u v : Bool) (huv : (u && v) = false),
    ∃ rest, l = dropCrossed b u v l ++ rest ∧
      (upAfter b u ((dropCrossed b u v l).map Prod.fst) && downAfter b v ((dropCrossed b u v l).map Prod.fst)) = false ∧
      ∀ x xs, rest = x :: xs → (upAfter b u ((dropCrossed b u v l).map Prod.fst ++ [x.1]) &&
        downAfter b v ((dropCrossed b u v l).map Prod.fst ++ [x.1])) = true
  | [], u, v, huv => by
    refine ⟨[], rfl, ?_, ?_⟩
    · simpa [dropCrossed, upAfter, downAfter] using huv
    · intro x xs h; cases h
  | x :: xs, u, v, huv => by
    unfold dropCrossed
    simp only
    split_ifs with h
    · have h' := h
      rw [Bool.and_eq_true] at h'
      rw [h'.1, h'.2, dropCrossed_tt]
      refine ⟨x :: xs, rfl, ?_, ?_⟩
      · simpa [upAfter, downAfter] using huv
      · intro y ys hy
        cases hy
        simpa [upAfter, downAfter] using h'
    · obtain ⟨rest, h1, h2, h3⟩ := dropCrossed_prefix b xs (u || above b x.1.d) (v || below b x.1.d) (by simpa using h)
      refine ⟨rest, by rw [List.cons_append, ← h1], ?_, ?_⟩
      · simpa [upAfter, downAfter, Bool.or_assoc] using h2
      · intro y ys hy
        have := h3 y ys hy
        simpa [upAfter, downAfter, Bool.or_assoc] using this

lemma above_some (b d : K) : above (some b) (some d) = decide (b < d) := by
  unfold above sub?
  simp only [decide_eq_decide, sub_pos]

lemma below_some (b d : K) : below (some b) (some d) = decide (d < b) := by
  unfold below sub?
  simp only [decide_eq_decide, sub_neg]

lemma crosses_iff (b : K) (l : List (ℤ × K)) :
    (upAfter (some b) false (complete l) && downAfter (some b) false (complete l)) = true ↔ Crosses b l := by
  unfold upAfter downAfter Crosses complete
  simp only [Bool.false_or, Bool.and_eq_true, List.any_eq_true, List.mem_map, exists_exists_and_eq_and, above_some,
    below_some, decide_eq_true_eq]

/-! ## C56 -/

lemma append_map_split {α β : Type*} (f : α → β) : ∀ (l : List α) (a b : List β), l.map f = a ++ b →
    ∃ l1 l2, l = l1 ++ l2 ∧ l1.map f = a ∧ l2.map f = b := by
  intro l a b h
  exact List.map_eq_append_iff.1 h

/-- **C56.** By default (`keep_bidirectional_switchers=False`) the rows kept are the longest initial part of the path
during which the unit has not been both above and below its initial treatment; the row at which it has been on both sides, and
all later ones, are dropped. -/
theorem C56_rows_kept (p : ℤ × K) (l : List (ℤ × K)) (h : (p :: l).Pairwise fun a b => a.1 < b.1) :
    ∃ kept rest, p :: l = kept ++ rest ∧ (identify false (complete (p :: l))).rows = complete kept ∧
      ¬ Crosses p.2 kept ∧ ∀ q qs, rest = q :: qs → Crosses p.2 (kept ++ [q]) := by
  have hb : baseline (complete (p :: l)) = some p.2 := baseline_head (complete_sorted h)
  obtain ⟨rest, h1, h2, h3⟩ := dropCrossed_prefix (some p.2) (diffs none (complete (p :: l))) false false rfl
  have hm : (p :: l).map (fun p : ℤ × K => (⟨p.1, some p.2⟩ : Obs K)) =
      (dropCrossed (some p.2) false false (diffs none (complete (p :: l)))).map Prod.fst ++ rest.map Prod.fst := by
    rw [← List.map_append, ← h1, diffs_fst]; rfl
  obtain ⟨k, r, hkr, hk, hr⟩ := append_map_split _ _ _ _ hm
  refine ⟨k, r, hkr, ?_, ?_, ?_⟩
  · unfold identify
    simp only [hb, Bool.false_eq_true, if_false]
    exact hk.symm
  · intro hc
    rw [← crosses_iff] at hc
    unfold complete at hc
    rw [hk] at hc
    rw [h2] at hc
    cases hc
  · intro q qs hq
    rw [← crosses_iff]
    cases rest with
    | nil => rw [hq] at hr; simp at hr
    | cons x xs =>
      rw [hq, List.map_cons, List.map_cons] at hr
      have := h3 x xs rfl
      rw [← hk, ← (List.cons.inj hr).1] at this
      have e : complete (k ++ [q]) = k.map (fun p : ℤ × K => (⟨p.1, some p.2⟩ : Obs K)) ++ [⟨q.1, some q.2⟩] := by
        unfold complete; simp
      rw [e]
      exact this

/-- **C56 (opt-out).** With `keep_bidirectional_switchers=True` no row is dropped. -/
theorem C56_keep_all (path : List (Obs K)) : (identify true path).rows = path := by
  unfold identify
  simp only [if_true]
  exact diffs_fst none path

/-! ## C55 -/

lemma keeps_first_change (b : K) (t : ℤ) (a : K) (post : List (ℤ × K)) : ∀ (pre : List (ℤ × K)) (prev : Option K)
    (hpre : ∀ q ∈ pre, q.2 = b), ∃ tail, dropCrossed (some b) false false (diffs prev (complete (pre ++ (t, a) :: post))) =
      diffs prev (complete (pre ++ [(t, a)])) ++ tail
  | [], prev, _ => by
    unfold complete
    simp only [List.nil_append, List.map_cons, List.map_nil, diffs]
    unfold dropCrossed
    simp only [Bool.false_or, above_some, below_some]
    have : (decide (b < a) && decide (a < b)) = false := by
      rcases lt_trichotomy a b with h | h | h
      · simp [h.not_gt]
      · simp [h]
      · simp [h.not_gt]
    rw [this]
    exact ⟨_, rfl⟩
  | q :: pre, prev, hpre => by
    have hq := hpre q (List.mem_cons_self ..)
    obtain ⟨tail, ht⟩ := keeps_first_change b t a post pre (some q.2) fun x hx => hpre x (List.mem_cons_of_mem _ hx)
    refine ⟨tail, ?_⟩
    unfold complete at ht ⊢
    simp only [List.cons_append, List.map_cons, diffs]
    unfold dropCrossed
    simp only [Bool.false_or, above_some, below_some, hq, lt_irrefl, decide_false, Bool.and_false, Bool.false_eq_true,
      if_false]
    rw [hq] at ht
    rw [ht]

/-- The rows kept, whether or not crossing rows are dropped, start with the path up to and including the first change. -/
lemma kept_start (keep : Bool) (b : K) (t : ℤ) (a : K) (pre post : List (ℤ × K)) (hpre : ∀ q ∈ pre, q.2 = b) :
    ∃ tail, (if keep = true then diffs none (complete (pre ++ (t, a) :: post))
      else dropCrossed (some b) false false (diffs none (complete (pre ++ (t, a) :: post)))) =
        diffs none (complete (pre ++ [(t, a)])) ++ tail := by
  cases keep with
  | false => simpa using keeps_first_change b t a post pre none hpre
  | true =>
    simp only [if_true]
    have : ∀ (l : List (ℤ × K)) (prev : Option K), ∃ tail, diffs prev (complete (l ++ (t, a) :: post)) =
        diffs prev (complete (l ++ [(t, a)])) ++ tail := by
      intro l
      induction l with
      | nil => intro prev; exact ⟨diffs (some a) (complete post), rfl⟩
      | cons q l ih =>
        intro prev
        obtain ⟨tail, ht⟩ := ih (some q.2)
        refine ⟨tail, ?_⟩
        unfold complete at ht ⊢
        simp only [List.cons_append, List.map_cons, diffs, ht]
    exact this pre none

/-- **C55 (switchers).** If the treatment first changes in period `t`, from `before` to `after`, then the reported first
switch is `t`, the reported baseline is `before`, and the reported direction is the sign of the change. -/
theorem C55_first_switch (keep : Bool) (l : List (ℤ × K)) (h : l.Pairwise fun a b => a.1 < b.1) (t : ℤ) (before after : K)
    (hc : FirstChange l t before after) :
    (identify keep (complete l)).F = (t : WithTop ℤ) ∧ (identify keep (complete l)).dsq = some before ∧
    (identify keep (complete l)).S = if before < after then 1 else -1 := by
  obtain ⟨pre, post, p, rfl, hpre, hne⟩ := hc
  obtain ⟨q, m, hqm⟩ : ∃ q m, pre ++ [p] = q :: m := by cases pre <;> exact ⟨_, _, rfl⟩
  have hl : pre ++ p :: (t, after) :: post = (q :: m) ++ (t, after) :: post := by rw [← hqm]; simp
  rw [hl] at h ⊢
  have hq : q.2 = before := hpre q (by rw [hqm]; exact List.mem_cons_self ..)
  have hm : ∀ x ∈ m, x.2 = before := fun x hx => hpre x (by rw [hqm]; exact List.mem_cons_of_mem _ hx)
  have hb : baseline (complete ((q :: m) ++ (t, after) :: post)) = some before := by
    rw [← hq]; exact baseline_head (complete_sorted h)
  obtain ⟨tail, ht⟩ := kept_start keep before t after (q :: m) post (by
    intro x hx; rcases List.mem_cons.1 hx with rfl | hx; exacts [hq, hm x hx])
  have hsorted : Sorted (complete ((q :: m) ++ (t, after) :: post)) := complete_sorted h
  -- rows kept are a sublist of all rows
  have hsub : (diffs none (complete ((q :: m) ++ [(t, after)])) ++ tail).Sublist
      (diffs none (complete ((q :: m) ++ (t, after) :: post))) := by
    rw [← ht]
    cases keep with
    | true => exact List.Sublist.refl _
    | false => exact dropCrossed_sublist _ _ _ _
  have hks : ((diffs none (complete ((q :: m) ++ [(t, after)])) ++ tail).map fun x => x.1.t).Pairwise (· < ·) :=
    (diffs_sorted none hsorted).sublist (hsub.map _)
  have hfil : ∃ tl, (diffs none (complete ((q :: m) ++ [(t, after)])) ++ tail).filter switches =
      (⟨t, some after⟩, some (after - before)) :: tl := by
    rw [List.filter_append]
    have h1 : (diffs none (complete ((q :: m) ++ [(t, after)]))).filter switches =
        (⟨t, some after⟩, some (after - before)) :: [] := by
      have e : complete ((q :: m) ++ [(t, after)]) = (⟨q.1, some q.2⟩ : Obs K) :: complete (m ++ (t, after) :: []) := by
        unfold complete; simp
      rw [e, filter_none_const, hq]
      have := diffs_change before t after hne [] m hm
      rw [this]
      rfl
    rw [h1]
    exact ⟨_, rfl⟩
  obtain ⟨tl, hfil⟩ := hfil
  have hF : firstSwitch (diffs none (complete ((q :: m) ++ [(t, after)])) ++ tail) = some t := by
    rw [firstSwitch_head hks, hfil]; rfl
  unfold identify
  simp only [hb, ht, hF, hfil]
  refine ⟨trivial, ?_, ?_⟩
  · have e : (diffs none (complete ((q :: m) ++ [(t, after)])) ++ tail).map Prod.fst =
        (⟨q.1, some q.2⟩ : Obs K) :: (complete (m ++ [(t, after)]) ++ tail.map Prod.fst) := by
      rw [List.map_append, diffs_fst]
      unfold complete; simp
    have hs : Sorted ((⟨q.1, some q.2⟩ : Obs K) :: (complete (m ++ [(t, after)]) ++ tail.map Prod.fst)) := by
      rw [← e]
      unfold Sorted
      have := hks
      rw [show (fun x : Obs K × Option K => x.1.t) = Obs.t ∘ Prod.fst from rfl, ← List.map_map] at this
      exact List.pairwise_map.1 this
    rw [e, baseline_head hs, hq]
  · simp only [List.head?_cons, Option.bind_some, direction, sub_pos, sub_neg]
    by_cases hlt : before < after
    · rw [if_pos hlt, if_pos hlt]
    · rw [if_neg hlt, if_neg hlt, if_pos (lt_of_le_of_ne (not_lt.1 hlt) hne)]

/-- **C55 (horizons).** The number of available horizons of a switcher is the number of calendar periods from its first
switch to its last observed period, both included, whether or not rows after a crossing are dropped. -/
theorem C55_horizons (keep : Bool) (l : List (ℤ × K)) (h : l.Pairwise fun a b => a.1 < b.1) (t : ℤ) (before after : K)
    (hc : FirstChange l t before after) (z : ℤ × K) (hz : l.getLast? = some z) :
    (identify keep (complete l)).L = z.1 - t + 1 ∧ t ≤ z.1 := by
  have h1 := (C55_first_switch true l h t before after hc).1
  have hF : firstSwitch (diffs none (complete l)) = some t := by
    unfold identify at h1
    simp only [if_true] at h1
    cases hf : firstSwitch (diffs none (complete l)) with
    | none => rw [hf] at h1; exact absurd h1 (by simp)
    | some f => rw [hf] at h1; simp only at h1; rw [WithTop.coe_inj.1 h1]
  obtain ⟨m, rfl⟩ := List.getLast?_eq_some_iff.1 hz
  have hmax : ((complete (m ++ [z])).map Obs.t).max? = some z.1 := by
    rw [List.max?_eq_some_iff]
    unfold complete
    simp only [List.map_append, List.map_cons, List.map_nil, List.map_map, List.mem_append, List.mem_map,
      List.mem_singleton, Function.comp]
    refine ⟨Or.inr trivial, ?_⟩
    rintro b (⟨a, ha, rfl⟩ | rfl)
    · exact (List.pairwise_append.1 h).2.2 a ha z (by simp) |>.le
    · exact le_rfl
  constructor
  · unfold identify
    simp only [hF, hmax]
  · have hm : t ∈ (complete (m ++ [z])).map Obs.t := by
      obtain ⟨pre, post, p, hl, _⟩ := hc
      rw [hl]; unfold complete; simp
    exact (List.max?_eq_some_iff.1 hmax).2 t hm

/-- **C55 (never-switchers).** If the treatment never changes, the reported first switch is infinite and the direction
zero. -/
theorem C55_never (keep : Bool) (l : List (ℤ × K)) (hc : Constant l) :
    (identify keep (complete l)).F = ⊤ ∧ (identify keep (complete l)).S = 0 := by
  have hz : (diffs none (complete l)).filter switches = [] := by
    cases l with
    | nil => rfl
    | cons p l =>
      have e : complete (p :: l) = (⟨p.1, some p.2⟩ : Obs K) :: complete l := rfl
      rw [e, filter_none_const]
      exact diffs_const p.2 l fun q hq => hc q (List.mem_cons_of_mem _ hq) p (List.mem_cons_self ..)
  have hk : ∀ r : List (Obs K × Option K), r.Sublist (diffs none (complete l)) → r.filter switches = [] := by
    intro r hr
    have := hr.filter switches
    rw [hz] at this
    exact List.sublist_nil.1 this
  unfold identify firstSwitch
  simp only
  rw [hk]
  · exact ⟨rfl, rfl⟩
  · cases keep with
    | true => exact List.Sublist.refl _
    | false => exact dropCrossed_sublist _ _ _ _

lemma change_or_constant (b : K) : ∀ (l : List (ℤ × K)), (∀ q ∈ l, q.2 = b) ∨
    ∃ pre post t a, l = pre ++ (t, a) :: post ∧ (∀ q ∈ pre, q.2 = b) ∧ a ≠ b
  | [] => .inl (by simp)
  | q :: l => by
    by_cases hq : q.2 = b
    · rcases change_or_constant b l with h | ⟨pre, post, t, a, rfl, hpre, hne⟩
      · left; intro x hx; rcases List.mem_cons.1 hx with rfl | hx; exacts [hq, h x hx]
      · right
        refine ⟨q :: pre, post, t, a, rfl, ?_, hne⟩
        intro x hx; rcases List.mem_cons.1 hx with rfl | hx; exacts [hq, hpre x hx]
    · right; exact ⟨[], l, q.1, q.2, rfl, by simp, hq⟩

/-- **C55 (dichotomy).** The reported first switch is infinite exactly for constant paths; every other path has a first
change, and `C55_first_switch` applies to it. -/
theorem C55_dichotomy (keep : Bool) (l : List (ℤ × K)) (h : l.Pairwise fun a b => a.1 < b.1) :
    ((identify keep (complete l)).F = ⊤ ↔ Constant l) ∧
    (¬ Constant l → ∃ t before after, FirstChange l t before after) := by
  have hex : ¬ Constant l → ∃ t before after, FirstChange l t before after := by
    intro hc
    cases l with
    | nil => exact absurd (fun p hp => by simp at hp) hc
    | cons p l =>
      rcases change_or_constant p.2 l with hl | ⟨pre, post, t, a, rfl, hpre, hne⟩
      · exfalso
        apply hc
        have : ∀ x ∈ p :: l, x.2 = p.2 := by
          intro x hx; rcases List.mem_cons.1 hx with rfl | hx; exacts [rfl, hl x hx]
        intro x hx y hy
        rw [this x hx, this y hy]
      · refine ⟨t, p.2, a, ?_⟩
        obtain ⟨r, z, hrz⟩ : ∃ r z, p :: pre = r ++ [z] :=
          ⟨(p :: pre).dropLast, (p :: pre).getLast (by simp), (List.dropLast_append_getLast (by simp)).symm⟩
        refine ⟨r, post, z, ?_, ?_, hne⟩
        · have : p :: (pre ++ (t, a) :: post) = (p :: pre) ++ (t, a) :: post := rfl
          rw [this, hrz]; simp
        · rw [← hrz]
          intro x hx; rcases List.mem_cons.1 hx with rfl | hx; exacts [rfl, hpre x hx]
  refine ⟨⟨fun hF => ?_, fun hc => (C55_never keep l hc).1⟩, hex⟩
  by_contra hc
  obtain ⟨t, b, a, hf⟩ := hex hc
  rw [(C55_first_switch keep l h t b a hf).1] at hF
  exact absurd hF (WithTop.coe_ne_top)

/-- **C55 (missing treatments, violated).** A change across a period with missing treatment is not seen: the unit is
classified as never switching although its observed treatments differ. -/
theorem C55_missing_violated (t1 t2 t3 : ℤ) (h12 : t1 < t2) (h23 : t2 < t3) (a b : K) (_hab : a ≠ b) (keep : Bool) :
    (identify keep [⟨t1, some a⟩, ⟨t2, none⟩, ⟨t3, some b⟩]).F = ⊤ := by
  have hz : (diffs (K := K) none [⟨t1, some a⟩, ⟨t2, none⟩, ⟨t3, some b⟩]).filter switches = [] := by
    simp [diffs, sub?, switches]
  have hk : ∀ r : List (Obs K × Option K), r.Sublist (diffs none [⟨t1, some a⟩, ⟨t2, none⟩, ⟨t3, some b⟩]) →
      r.filter switches = [] := by
    intro r hr
    have := hr.filter switches
    rw [hz] at this
    exact List.sublist_nil.1 this
  unfold identify firstSwitch
  simp only
  rw [hk]
  · rfl
  · cases keep with
    | true => exact List.Sublist.refl _
    | false => exact dropCrossed_sublist _ _ _ _

/-! ## A concrete path -/

def exPath : List (ℤ × ℚ) := [(1, 1), (2, 1), (4, 3), (5, 1), (6, 0), (7, 5)]

example : FirstChange exPath 4 1 3 ∧ exPath.Pairwise (fun a b => a.1 < b.1) ∧ ¬ Constant exPath := by
  refine ⟨⟨[(1, 1)], [(5, 1), (6, 0), (7, 5)], (2, 1), rfl, by decide +kernel, by norm_num⟩, by decide +kernel, ?_⟩
  intro h
  have := h (1, 1) (by simp [exPath]) (4, 3) (by simp [exPath])
  norm_num at this

example : (identify false (complete exPath)).rows.map Obs.t = [1, 2, 4, 5] ∧ (identify false (complete exPath)).S = 1 ∧
    (identify true (complete exPath)).rows.length = 6 ∧ (identify false (complete exPath)).L = 4 := by decide +kernel

end Verif.Inter
