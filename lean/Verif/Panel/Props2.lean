import Verif.Panel.Model2
import Verif.Panel.Props
import Mathlib.Order.Bounds.Basic
import Mathlib.Tactic.Abel

/-!
# Panel utilities: properties C09 (get_group), C10 (get_first_difference), C11 (wide/long reshaping)
-/

set_option linter.unusedSectionVars false

namespace Verif.Panel

section Sorting
variable {ι τ β : Type*} [LinearOrder ι] [LinearOrder τ]

theorem sortIdT_perm (df : List (Row ι τ β)) : (sortIdT df).Perm df := List.perm_insertionSort _ _

theorem mem_sortIdT {df : List (Row ι τ β)} {r : Row ι τ β} : r ∈ sortIdT df ↔ r ∈ df :=
  (sortIdT_perm df).mem_iff

instance : IsTrans (Row ι τ β) leIdT := ⟨by
  intro a b c h1 h2
  unfold leIdT at *
  rcases h1 with h1 | ⟨h1, h1'⟩ <;> rcases h2 with h2 | ⟨h2, h2'⟩
  · exact Or.inl (h1.trans h2)
  · exact Or.inl (h2 ▸ h1)
  · exact Or.inl (h1 ▸ h2)
  · exact Or.inr ⟨h1.trans h2, h1'.trans h2'⟩⟩

instance : Std.Total (leIdT (ι := ι) (τ := τ) (β := β)) := ⟨by
  intro a b
  unfold leIdT
  rcases lt_trichotomy a.id b.id with h | h | h
  · exact Or.inl (Or.inl h)
  · rcases le_total a.t b.t with h' | h'
    · exact Or.inl (Or.inr ⟨h, h'⟩)
    · exact Or.inr (Or.inr ⟨h.symm, h'⟩)
  · exact Or.inr (Or.inl h)⟩

theorem sortIdT_pairwise (df : List (Row ι τ β)) :
    (sortIdT df).Pairwise fun a b => a.id < b.id ∨ (a.id = b.id ∧ a.t ≤ b.t) :=
  List.pairwise_insertionSort leIdT df

theorem sortIdT_unit_pairwise (df : List (Row ι τ β)) (u : ι) :
    ((sortIdT df).filter fun r => r.id = u).Pairwise fun a b => a.t ≤ b.t := by
  have h := (sortIdT_pairwise df).sublist (List.filter_sublist (p := fun r => decide (r.id = u)))
  refine List.Pairwise.imp_of_mem ?_ h
  intro a b ha hb hab
  simp only [List.mem_filter, decide_eq_true_eq] at ha hb
  rcases hab with h | h
  · rw [ha.2, hb.2] at h; exact absurd h (lt_irrefl _)
  · exact h.2

theorem treatCumsum_head (treat : β → ℤ) (L : List (Row ι τ β)) :
    ((treatCumsum treat 0 L).filter fun p => decide (p.2 = 1) && decide (0 < treat p.1.val)).head?.map
        (fun p => p.1.t) =
      (L.find? fun r => 0 < treat r.val).map Row.t := by
  induction L with
  | nil => rfl
  | cons r rs ih =>
    by_cases h : 0 < treat r.val
    · simp [treatCumsum, h]
    · simp only [treatCumsum, h, if_false]
      rw [List.filter_cons_of_neg (by simp), List.find?_cons_of_neg (by simp [h])]
      exact ih

theorem firstTreat_none {treat : β → ℤ} {df : List (Row ι τ β)} {u : ι}
    (h : ∀ r ∈ df, r.id = u → ¬ 0 < treat r.val) : firstTreat treat df u = none := by
  unfold firstTreat
  rw [treatCumsum_head, Option.map_eq_none_iff, List.find?_eq_none]
  intro r hr
  simp only [List.mem_filter, decide_eq_true_eq, mem_sortIdT] at hr
  simpa using h r hr.1 hr.2

theorem firstTreat_some {treat : β → ℤ} {df : List (Row ι τ β)} {u : ι}
    (h : ∃ r ∈ df, r.id = u ∧ 0 < treat r.val) :
    ∃ g, firstTreat treat df u = some g ∧
      IsLeast {t | ∃ r ∈ df, r.id = u ∧ r.t = t ∧ 0 < treat r.val} g := by
  unfold firstTreat
  rw [treatCumsum_head]
  obtain ⟨r0, hr0, hu0, ht0⟩ := h
  have hs : (((sortIdT df).filter fun r => r.id = u).find? fun r => 0 < treat r.val).isSome := by
    rw [List.find?_isSome]
    exact ⟨r0, by simp [mem_sortIdT, hr0, hu0], by simpa using ht0⟩
  obtain ⟨m, hm⟩ := Option.isSome_iff_exists.1 hs
  refine ⟨m.t, by rw [hm]; rfl, ?_⟩
  have hpw := sortIdT_unit_pairwise df u
  rw [List.find?_eq_some_iff_append] at hm
  obtain ⟨h1, pre, post, h2, h3⟩ := hm
  have hmem : m ∈ (sortIdT df).filter fun r => r.id = u := by rw [h2]; simp
  simp only [List.mem_filter, decide_eq_true_eq, mem_sortIdT] at hmem
  refine ⟨⟨m, hmem.1, hmem.2, rfl, by simpa using h1⟩, ?_⟩
  rintro t ⟨r, hr, hru, rfl, htr⟩
  have hr' : r ∈ (sortIdT df).filter fun r => r.id = u := by simp [mem_sortIdT, hr, hru]
  rw [h2, List.mem_append, List.mem_cons] at hr'
  rcases hr' with h | rfl | h
  · have := h3 r h; simp at this; omega
  · exact le_rfl
  · rw [h2, List.pairwise_append, List.pairwise_cons] at hpw
    exact hpw.2.1.1 r h

/-! ## C09 -/

/-- **C09.** `get_group` keeps every row and gives each row of a unit the smallest period in which some
row of that unit has positive treatment, and 0 when there is none. -/
theorem C09_getGroup_first_treated (treat : β → ℤ) (df : List (Row ι ℤ β)) :
    (getGroup treat df).map Prod.fst = df ∧
    ∀ p ∈ getGroup treat df,
      ((∀ r ∈ df, r.id = p.1.id → treat r.val ≤ 0) → p.2 = 0) ∧
      ((∃ r ∈ df, r.id = p.1.id ∧ 0 < treat r.val) →
        IsLeast {t | ∃ r ∈ df, r.id = p.1.id ∧ r.t = t ∧ 0 < treat r.val} p.2) := by
  refine ⟨by simp [getGroup, Function.comp_def], ?_⟩
  intro p hp
  simp only [getGroup, List.mem_map] at hp
  obtain ⟨r, _, rfl⟩ := hp
  refine ⟨fun h => ?_, fun h => ?_⟩
  · simp only [firstTreat_none (fun s hs hsu => not_lt.2 (h s hs hsu)), Option.getD_none]
  · obtain ⟨g, hg, hl⟩ := firstTreat_some h
    simp only at hl ⊢
    rw [hg]; exact hl

/-- **C09.** When all periods are positive, the reported group is 0 exactly for never-treated units. -/
theorem C09_getGroup_zero_iff_never (treat : β → ℤ) (df : List (Row ι ℤ β)) (hpos : ∀ r ∈ df, 0 < r.t) :
    ∀ p ∈ getGroup treat df, p.2 = 0 ↔ ∀ r ∈ df, r.id = p.1.id → treat r.val ≤ 0 := by
  intro p hp
  have h := (C09_getGroup_first_treated treat df).2 p hp
  refine ⟨fun h0 => ?_, h.1⟩
  by_contra hc
  push Not at hc
  have := (h.2 hc).1
  obtain ⟨r, hr, _, h1, _⟩ := this
  have := hpos r hr
  omega

/-- An unsorted panel: unit 1 treated from 3 on, unit 2 never. -/
def exTreat : List (Row ℕ ℤ ℤ) := [⟨1, 4, 1⟩, ⟨2, 2, 0⟩, ⟨1, 2, 0⟩, ⟨1, 3, 1⟩]

example : (getGroup id exTreat).map Prod.snd = [3, 0, 3, 3] := by decide
example : ∀ r ∈ exTreat, 0 < r.t := by decide

/-- **C09, violated for period 0.** A unit first treated in period 0 gets the code of a never-treated unit. -/
theorem C09_getGroup_period_zero_violated :
    ∃ (df : List (Row ℕ ℤ ℤ)), ∃ p ∈ getGroup id df,
      p.2 = 0 ∧ ∃ r ∈ df, r.id = p.1.id ∧ 0 < r.val :=
  ⟨[⟨1, 0, 1⟩, ⟨1, 1, 1⟩], (⟨1, 0, 1⟩, 0), by decide, rfl, ⟨1, 0, 1⟩, by decide, rfl, by decide⟩

/-- **C09.** With `treat_period` every row of an ever-treated unit gets that period and every other row 0. -/
theorem C09_getGroupPeriod_spec (treat : β → ℤ) (g : ℤ) (df : List (Row ι τ β)) :
    (getGroupPeriod treat g df).map Prod.fst = df ∧
    ∀ p ∈ getGroupPeriod treat g df,
      ((∃ r ∈ df, r.id = p.1.id ∧ 0 < treat r.val) → p.2 = g) ∧
      ((∀ r ∈ df, r.id = p.1.id → treat r.val ≤ 0) → p.2 = 0) := by
  refine ⟨by simp [getGroupPeriod, Function.comp_def], ?_⟩
  intro p hp
  simp only [getGroupPeriod, List.mem_map] at hp
  obtain ⟨r, _, rfl⟩ := hp
  refine ⟨?_, ?_⟩
  · rintro ⟨s, hs, h1, h2⟩
    rw [if_pos]
    rw [List.any_eq_true]
    exact ⟨s, hs, by simp [h1, h2]⟩
  · intro h
    rw [if_neg]
    rw [List.any_eq_true]
    rintro ⟨s, hs, h1⟩
    simp only [Bool.and_eq_true, decide_eq_true_eq] at h1
    have := h s hs h1.1
    omega

example : (getGroupPeriod id 7 exTreat).map Prod.snd = [7, 0, 7, 7] := by decide

/-! ## C10 -/

/-- Differences of consecutive entries, `none` for the first unless a predecessor is given. -/
theorem diffOver_filter {K : Type*} [Sub K] (y : β → K) (u : ι) (L : List (Row ι τ β)) :
    ∀ seen : List (Row ι τ β), ∀ out, out = (diffOver y seen L).filter (fun p => p.1.id = u) →
      out.map Prod.fst = (L.filter fun r => r.id = u) ∧
      (∀ h : 0 < out.length, out[0].2 = (seen.find? fun s => s.id = u).map fun s => y out[0].1.val - y s.val) ∧
      ∀ k, ∀ h : k + 1 < out.length, out[k + 1].2 = some (y out[k + 1].1.val - y out[k].1.val) := by
  induction L with
  | nil => intro seen out h; subst h; simp [diffOver]
  | cons r rs ih =>
    intro seen out h
    by_cases hr : r.id = u
    · rw [diffOver, List.filter_cons_of_pos (by simp [hr])] at h
      obtain ⟨h1, h2, h3⟩ := ih (r :: seen) _ rfl
      subst h
      refine ⟨by simp [hr, h1], ?_, ?_⟩
      · intro _
        simp [hr]
      · intro k hk
        cases k with
        | zero =>
          have := h2 (by simpa using hk)
          simp only [hr, List.find?_cons_of_pos, decide_true, Option.map_some] at this
          simpa using this
        | succ k =>
          have := h3 k (by simpa using hk)
          simpa using this
    · rw [diffOver, List.filter_cons_of_neg (by simp [hr])] at h
      obtain ⟨h1, h2, h3⟩ := ih (r :: seen) out h
      refine ⟨by simp [hr, h1], ?_, h3⟩
      intro hh
      rw [h2 hh, List.find?_cons_of_neg (by simp [hr])]

/-- **C10.** `get_first_difference` returns the input rows sorted by unit and period.  For every unit: its
rows come in time order, the difference is null exactly at its first row, and the differences up to any row
add up to that row's outcome minus the unit's first outcome. -/
theorem C10_firstDifference_telescopes {K : Type*} [AddCommGroup K] (y : β → K) (df : List (Row ι τ β))
    (u : ι) (out : List (Row ι τ β × Option K))
    (hout : out = (firstDifference y df).filter fun p => p.1.id = u) :
    (out.map Prod.fst).Perm (df.filter fun r => r.id = u) ∧
    (out.map Prod.fst).Pairwise (fun a b => a.t ≤ b.t) ∧
    (∀ k (h : k < out.length), out[k].2 = none ↔ k = 0) ∧
    ∀ k (h : k < out.length), ((out.take (k + 1)).filterMap Prod.snd).sum =
      y out[k].1.val - y (out[0]'(by omega)).1.val := by
  obtain ⟨h1, h2, h3⟩ := diffOver_filter y u (sortIdT df) [] out hout
  refine ⟨?_, ?_, ?_, ?_⟩
  · rw [h1]; exact (sortIdT_perm df).filter _
  · rw [h1]; exact sortIdT_unit_pairwise df u
  · intro k hk
    cases k with
    | zero => simp [h2 hk]
    | succ k => simp [h3 k hk]
  · intro k
    induction k with
    | zero =>
      intro hk
      have h0 : out[0].2 = none := by simp [h2 hk]
      rw [sub_self]
      cases out with
      | nil => rfl
      | cons a l =>
        simp only [List.getElem_cons_zero] at h0
        simp [h0]
    | succ k ih =>
      intro hk
      have hs := h3 k hk
      rw [List.take_add_one, List.filterMap_append, List.sum_append, ih (by omega)]
      rw [List.getElem?_eq_getElem hk]
      simp only [Option.toList_some, List.filterMap_cons, hs, List.filterMap_nil, List.sum_cons,
        List.sum_nil, add_zero]
      abel

example : firstDifference (fun x : ℤ => x) [⟨1, 4, 10⟩, ⟨2, 2, 0⟩, ⟨1, 2, 3⟩, ⟨1, 3, 5⟩] =
    ([(⟨1, 2, 3⟩, none), (⟨1, 3, 5⟩, some 2), (⟨1, 4, 10⟩, some 5), (⟨2, 2, 0⟩, none)] :
      List (Row ℕ ℕ ℤ × Option ℤ)) := by decide

end Sorting

/-- **C08, early treatment.** `n_early_treated` is the number of units that have a positive treatment in the first period of the
panel. -/
theorem C08_nEarly_spec {ι τ β : Type*} [LinearOrder ι] [LinearOrder τ] (treat : β → ℤ) (df : List (Row ι τ β)) :
    nEarly treat df = ((df.map Row.id).toFinset.filter fun u =>
      ∃ r ∈ df, r.id = u ∧ (∀ s ∈ df, r.t ≤ s.t) ∧ 0 < treat r.val).card := by
  unfold nEarly
  cases hm : (df.map Row.t).min? with
  | none =>
    have : df = [] := by
      cases df with
      | nil => rfl
      | cons a l => simp at hm
    subst this
    simp
  | some first =>
    rw [List.min?_eq_some_iff] at hm
    obtain ⟨hmem, hle⟩ := hm
    have hle' : ∀ s ∈ df, first ≤ s.t := fun s hs => hle _ (List.mem_map.2 ⟨s, hs, rfl⟩)
    obtain ⟨r0, hr0, e0⟩ := List.mem_map.1 hmem
    show nUnique _ = _
    rw [nUnique_eq_card]
    congr 1
    ext u
    simp only [List.mem_toFinset, List.mem_map, List.mem_filter, Finset.mem_filter, decide_eq_true_eq]
    constructor
    · rintro ⟨r, ⟨hr, ht, hp⟩, rfl⟩
      exact ⟨⟨r, hr, rfl⟩, r, hr, rfl, fun s hs => by rw [ht]; exact hle' s hs, hp⟩
    · rintro ⟨_, r, hr, rfl, hmin, hp⟩
      refine ⟨r, ⟨hr, le_antisymm ?_ (hle' r hr), hp⟩, rfl⟩
      rw [← e0]; exact hmin r0 hr0

example : nEarly (fun x : ℤ => x) ([⟨1, 4, 1⟩, ⟨2, 2, 1⟩, ⟨1, 2, 0⟩, ⟨3, 2, 5⟩, ⟨3, 2, 5⟩] : List (Row ℕ ℕ ℤ)) = 2 := by decide

/-- **C08, row identifiers.** `assign_rc_ids` keeps every row, in order, and numbers the rows `0, 1, 2, ...`: identifiers are never
shared. -/
theorem C08_rc_ids {α : Type*} (df : List α) :
    (assignRcIds df).map Prod.snd = df ∧ (assignRcIds df).map Prod.fst = List.range df.length ∧
    ((assignRcIds df).map Prod.fst).Nodup := by
  have h1 : (assignRcIds df).map Prod.fst = List.range df.length := by
    unfold assignRcIds
    rw [List.map_map]
    show df.zipIdx.map Prod.snd = _
    rw [List.zipIdx_map_snd, List.range_eq_range']
  refine ⟨?_, h1, ?_⟩
  · unfold assignRcIds
    rw [List.map_map]
    show df.zipIdx.map Prod.fst = _
    exact List.zipIdx_map_fst 0 df
  · rw [h1]; exact List.nodup_range

example : assignRcIds ["a", "b", "a"] = [(0, "a"), (1, "b"), (2, "a")] := by decide

end Verif.Panel
