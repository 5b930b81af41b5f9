import Verif.Agg.Spec
import Mathlib.Tactic.Ring
import Mathlib.Tactic.FieldSimp

set_option linter.unusedSectionVars false

namespace Verif.Agg

/-! ## Sorted lookup tables -/

theorem uniqueSorted_pairwise (l : List ℤ) : (uniqueSorted l).Pairwise (· < ·) := by
  have h1 : (uniqueSorted l).Pairwise (· ≤ ·) := List.pairwise_insertionSort _ _
  have h2 : (uniqueSorted l).Nodup := (List.perm_insertionSort _ _).nodup_iff.2 (List.nodup_dedup _)
  exact (h1.and h2).imp fun h => lt_of_le_of_ne h.1 h.2

@[simp] theorem mem_uniqueSorted {l : List ℤ} {x : ℤ} : x ∈ uniqueSorted l ↔ x ∈ l := by
  unfold uniqueSorted; rw [List.mem_insertionSort, List.mem_dedup]

theorem orig2t_some {lk : List ℤ} (hs : lk.Pairwise (· < ·)) {i : ℕ} {x : ℤ} (h : lk[i]? = some x) :
    orig2t lk x = some (i + 1) := by
  unfold orig2t
  have : lk.findIdx? (fun a => decide (a = x)) = some i := by
    rw [List.findIdx?_eq_some_iff_getElem]
    obtain ⟨hi, rfl⟩ := List.getElem?_eq_some_iff.1 h
    refine ⟨hi, by simp, fun j hj => ?_⟩
    have := List.pairwise_iff_getElem.1 hs j i (by omega) hi hj
    simpa using this.ne
  rw [this]; rfl

theorem orig2t_none {lk : List ℤ} {x : ℤ} (h : x ∉ lk) : orig2t lk x = none := by
  unfold orig2t
  rw [List.findIdx?_eq_none_iff.2]; · rfl
  intro a ha
  simp only [decide_eq_false_iff_not]
  rintro rfl; exact h ha

theorem searchSorted_getElem {lk : List ℤ} (hs : lk.Pairwise (· < ·)) : ∀ {i : ℕ} {x : ℤ}, lk[i]? = some x →
    searchSorted lk x = i := by
  unfold searchSorted
  induction lk with
  | nil => intro i x h; simp at h
  | cons a l ih =>
    rw [List.pairwise_cons] at hs
    intro i x h
    cases i with
    | zero =>
      simp only [List.getElem?_cons_zero, Option.some.injEq] at h
      subst h
      rw [List.filter_cons_of_neg (by simp), List.filter_eq_nil_iff.2]
      · rfl
      · intro b hb
        simp only [WithTop.coe_lt_coe, decide_eq_true_eq, not_lt]
        exact (hs.1 b hb).le
    | succ j =>
      simp only [List.getElem?_cons_succ] at h
      have hax : a < x := hs.1 x (List.mem_of_getElem? h)
      rw [List.filter_cons_of_pos (by simpa using hax), List.length_cons, ih hs.2 h]

theorem orig2tArr_eq {lk : List ℤ} (hs : lk.Pairwise (· < ·)) (x : ℤ) : orig2tArr lk x = orig2t lk x := by
  by_cases hx : x ∈ lk
  · obtain ⟨i, hi⟩ := List.mem_iff_getElem?.1 hx
    have hlt := (List.getElem?_eq_some_iff.1 hi).1
    rw [orig2t_some hs hi]
    unfold orig2tArr
    rw [if_neg (by omega), searchSorted_getElem hs hi]
    simp only
    rw [min_eq_left (by omega), hi]
    simp
  · rw [orig2t_none hx]
    unfold orig2tArr
    split_ifs with h0
    · rfl
    · simp only
      split
      · rfl
      · rename_i a ha
        rw [if_neg]
        intro he
        exact hx (by rw [← WithTop.coe_inj.1 he]; exact List.mem_of_getElem? ha)

theorem orig2tArr_top (lk : List ℤ) : orig2tArr lk ⊤ = none := by
  unfold orig2tArr
  split_ifs
  · rfl
  · simp only
    split
    · rfl
    · rw [if_neg (by simp)]

theorem t2orig_getElem {lk : List ℤ} {i : ℕ} {x : ℤ} (h : lk[i]? = some x) : t2orig lk (i + 1) = x := by
  unfold t2orig
  have hi := (List.getElem?_eq_some_iff.1 h).1
  have : ((List.range lk.length).map (· + 1)).findIdx? (fun a => decide (a = i + 1)) = some i := by
    rw [List.findIdx?_eq_some_iff_getElem]
    refine ⟨by simpa using hi, by simp, fun j hj => ?_⟩
    simp only [List.getElem_map, List.getElem_range, decide_eq_true_eq]; omega
  rw [this]
  simp only [h, Option.getD_some]

theorem code_getElem {lk : List ℤ} (hs : lk.Pairwise (· < ·)) {i : ℕ} {x : ℤ} (h : lk[i]? = some x) :
    code lk x = i + 1 := by unfold code; rw [orig2t_some hs h]; rfl

theorem code_lt {lk : List ℤ} (hs : lk.Pairwise (· < ·)) {x y : ℤ} (hx : x ∈ lk) (hy : y ∈ lk) :
    code lk x < code lk y ↔ x < y := by
  obtain ⟨i, hi⟩ := List.mem_iff_getElem?.1 hx
  obtain ⟨j, hj⟩ := List.mem_iff_getElem?.1 hy
  rw [code_getElem hs hi, code_getElem hs hj]
  obtain ⟨hi', rfl⟩ := List.getElem?_eq_some_iff.1 hi
  obtain ⟨hj', rfl⟩ := List.getElem?_eq_some_iff.1 hj
  constructor
  · intro h; exact List.pairwise_iff_getElem.1 hs i j hi' hj' (by omega)
  · intro h
    by_contra hc
    rcases Nat.lt_or_eq_of_le (not_lt.1 hc) with h2 | h2
    · have := List.pairwise_iff_getElem.1 hs j i hj' hi' (by omega); omega
    · have : i = j := by omega
      subst this; omega

theorem code_le {lk : List ℤ} (hs : lk.Pairwise (· < ·)) {x y : ℤ} (hx : x ∈ lk) (hy : y ∈ lk) :
    code lk x ≤ code lk y ↔ x ≤ y := by
  rw [← not_lt, ← not_lt, code_lt hs hy hx]

theorem code_inj {lk : List ℤ} (hs : lk.Pairwise (· < ·)) {x y : ℤ} (hx : x ∈ lk) (hy : y ∈ lk) :
    code lk x = code lk y ↔ x = y := by
  rw [le_antisymm_iff, le_antisymm_iff, code_le hs hx hy, code_le hs hy hx]

theorem t2orig_code {lk : List ℤ} (hs : lk.Pairwise (· < ·)) {x : ℤ} (hx : x ∈ lk) : t2orig lk (code lk x) = x := by
  obtain ⟨i, hi⟩ := List.mem_iff_getElem?.1 hx
  rw [code_getElem hs hi, t2orig_getElem hi]

theorem code_pos {lk : List ℤ} (hs : lk.Pairwise (· < ·)) {x : ℤ} (hx : x ∈ lk) : 0 < code lk x := by
  obtain ⟨i, hi⟩ := List.mem_iff_getElem?.1 hx
  rw [code_getElem hs hi]; omega

/-- Distance in recoded units is the number of table entries in between. -/
theorem code_sub {lk : List ℤ} (hs : lk.Pairwise (· < ·)) {x y : ℤ} (hx : x ∈ lk) (hy : y ∈ lk) (h : x ≤ y) :
    code lk y = code lk x + (lk.filter fun z => decide (x < z ∧ z ≤ y)).length := by
  have key : ∀ {z : ℤ}, z ∈ lk → code lk z = (lk.filter fun a => decide (a ≤ z)).length := by
    intro z hz
    obtain ⟨i, hi⟩ := List.mem_iff_getElem?.1 hz
    rw [code_getElem hs hi]
    clear hx hy h
    induction lk generalizing i with
    | nil => simp at hi
    | cons a l ih =>
      rw [List.pairwise_cons] at hs
      cases i with
      | zero =>
        simp only [List.getElem?_cons_zero, Option.some.injEq] at hi
        subst hi
        rw [List.filter_cons_of_pos (by simp), List.filter_eq_nil_iff.2]
        · rfl
        · intro b hb; simpa using hs.1 b hb
      | succ j =>
        simp only [List.getElem?_cons_succ] at hi
        have hm := List.mem_of_getElem? hi
        have haz : a < z := hs.1 z hm
        rw [List.filter_cons_of_pos (by simpa using haz.le), List.length_cons, ← ih hs.2 hm j hi]
  rw [key hy, key hx]
  clear key hx hy hs
  induction lk with
  | nil => rfl
  | cons a l ih =>
    by_cases h1 : a ≤ x
    · rw [List.filter_cons_of_pos (by simpa using h1.trans h), List.filter_cons_of_pos (by simpa using h1),
        List.filter_cons_of_neg (by simp; omega), List.length_cons, List.length_cons, ih]; omega
    · by_cases h2 : a ≤ y
      · rw [List.filter_cons_of_pos (by simpa using h2), List.filter_cons_of_neg (by simpa using h1),
          List.filter_cons_of_pos (by simp; omega), List.length_cons, List.length_cons, ih]; omega
      · rw [List.filter_cons_of_neg (by simpa using h2), List.filter_cons_of_neg (by simpa using h1),
          List.filter_cons_of_neg (by simp; omega), ih]

/-! ## Tables of a list of cells -/

variable {ι K : Type*}

theorem lookup_pairwise (cs : List (Cell ι K)) : (lookup cs).Pairwise (· < ·) := uniqueSorted_pairwise _

theorem mem_lookup_g {cs : List (Cell ι K)} {c : Cell ι K} (h : c ∈ cs) : c.g ∈ lookup cs := by
  unfold lookup; simp only [mem_uniqueSorted, List.mem_append, List.mem_map]; exact Or.inr ⟨c, h, rfl⟩

theorem mem_lookup_t {cs : List (Cell ι K)} {c : Cell ι K} (h : c ∈ cs) : c.t ∈ lookup cs := by
  unfold lookup; simp only [mem_uniqueSorted, List.mem_append, List.mem_map]; exact Or.inl ⟨c, h, rfl⟩

theorem steps_eq (cs : List (Cell ι K)) (g t : ℤ) :
    steps cs g t = ((lookup cs).filter fun z => decide (g < z ∧ z ≤ t)).length := by
  unfold steps
  apply List.Perm.length_eq
  apply List.Perm.filter
  rw [List.perm_ext_iff_of_nodup (List.nodup_dedup _)]
  · intro a
    unfold lookup
    simp
  · exact (lookup_pairwise cs).imp fun h => h.ne

section
variable [Fintype ι] [Field K]

theorem wInd_code {lk : List ℤ} (hs : lk.Pairwise (· < ·)) (G : ι → WithTop ℤ) (w : ι → K) {g : ℤ} (hg : g ∈ lk)
    (i : ι) : wInd lk G w (code lk g) i = if G i = (g : WithTop ℤ) then w i else 0 := by
  unfold wInd
  congr 1
  apply propext
  induction h : G i using WithTop.recTopCoe with
  | top => rw [orig2tArr_top]; simp
  | coe x =>
    rw [orig2tArr_eq hs, WithTop.coe_inj]
    by_cases hx : x ∈ lk
    · obtain ⟨j, hj⟩ := List.mem_iff_getElem?.1 hx
      rw [orig2t_some hs hj, ← code_getElem hs hj, Option.some.injEq, code_inj hs hx hg]
    · rw [orig2t_none hx]
      simp only [reduceCtorEq, false_iff]
      rintro rfl; exact hx hg

theorem groupProb_code {lk : List ℤ} (hs : lk.Pairwise (· < ·)) (G : ι → WithTop ℤ) (w : ι → K) {g : ℤ}
    (hg : g ∈ lk) : groupProb lk G w (code lk g) = share G w g := by
  unfold groupProb share avg
  congr 1
  exact Finset.sum_congr rfl fun i _ => wInd_code hs G w hg i

/-- A cell with its codes and its cohort's share. -/
def mk (G : ι → WithTop ℤ) (w : ι → K) (cs : List (Cell ι K)) (c : Cell ι K) : RCell ι K :=
  { toCell := c, rg := code (lookup cs) c.g, rt := code (lookup cs) c.t, pg := share G w c.g }

theorem recode_eq (G : ι → WithTop ℤ) (w : ι → K) (cs : List (Cell ι K)) : recode G w cs = cs.map (mk G w cs) := by
  unfold recode mk
  apply List.map_congr_left
  intro c hc
  rw [groupProb_code (lookup_pairwise cs) G w (mem_lookup_g hc)]

/-- Selecting recoded cells is selecting cells. -/
theorem recode_filter (G : ι → WithTop ℤ) (w : ι → K) (cs : List (Cell ι K)) (P : RCell ι K → Bool)
    (p : Cell ι K → Bool) (h : ∀ c ∈ cs, P (mk G w cs c) = p c) :
    (recode G w cs).filter P = (cs.filter p).map (mk G w cs) := by
  rw [recode_eq, List.filter_map]
  congr 1
  exact List.filter_congr h

theorem sum_div_list {α : Type*} (l : List α) (f : α → K) (s : K) : (l.map fun c => f c / s).sum = (l.map f).sum / s := by
  induction l with
  | nil => simp
  | cons a l ih => simp only [List.map_cons, List.sum_cons, ih, add_div]

theorem sum_mul_list {α : Type*} (l : List α) (f : α → K) (s : K) : (l.map fun c => f c * s).sum = (l.map f).sum * s := by
  induction l with
  | nil => simp
  | cons a l ih => simp only [List.map_cons, List.sum_cons, ih, add_mul]

theorem sum_sub_list {α : Type*} (l : List α) (f g : α → K) :
    (l.map fun c => f c - g c).sum = (l.map f).sum - (l.map g).sum := by
  induction l with
  | nil => simp
  | cons a l ih => simp only [List.map_cons, List.sum_cons, ih]; ring

theorem sum_add_list {α : Type*} (l : List α) (f g : α → K) :
    (l.map fun c => f c + g c).sum = (l.map f).sum + (l.map g).sum := by
  induction l with
  | nil => simp
  | cons a l ih => simp only [List.map_cons, List.sum_cons, ih]; ring

theorem sumPg_mk (G : ι → WithTop ℤ) (w : ι → K) (cs : List (Cell ι K)) (p : Cell ι K → Bool) :
    sumPg ((cs.filter p).map (mk G w cs)) = totalShare G w cs p := by
  unfold sumPg totalShare
  rw [List.map_map]; rfl

/-- The generic combination in terms of original cells. -/
theorem combine_eq [DecidableEq K] (G : ι → WithTop ℤ) (w : ι → K) (cs : List (Cell ι K)) (p : Cell ι K → Bool)
    (hne : totalShare G w cs p ≠ 0) :
    combine ((cs.filter p).map (mk G w cs)) = some (weightedMean G w cs p) := by
  unfold combine
  rw [sumPg_mk, if_neg (fun h => hne h.2), List.map_map]
  congr 1
  unfold weightedMean
  rw [← sum_div_list]
  congr 1
  apply List.map_congr_left
  intro c _
  simp only [Function.comp, mk]; ring

end
end Verif.Agg
