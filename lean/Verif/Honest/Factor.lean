import Mathlib.Data.List.Sort
import Mathlib.Data.List.Dedup
import Mathlib.Algebra.BigOperators.Group.List.Basic
import Mathlib.Algebra.Order.Floor.Ring
import Mathlib.Data.Rat.Floor
import Mathlib.Data.String.Basic
import Mathlib.Tactic.Linarith
import Mathlib.Tactic.NormNum
import Mathlib.Tactic.Ring
import Mathlib.Tactic.FieldSimp

set_option linter.unusedSectionVars false
set_option linter.unusedSimpArgs false

/-!
# Binning of factors and dummy variables (C245, C246)

Models `bin_factor` and `create_interactions` (`moderndid/didhonest/utils.py:119-421`).
-/

namespace Verif.Honest.Factor

/-! ## Model -/

variable {α β : Type*} [LinearOrder α] [LinearOrder β]

/-- `np.unique`, `utils.py:148,219,234`: the distinct values in increasing order. -/
def levels (vs : List α) : List α := vs.dedup.insertionSort (· ≤ ·)

/-- `unique_values[a:b]`, `utils.py:362-368`. -/
def slice (l : List α) (a b : ℕ) : List α := (l.take b).drop a

/-- Groups starting from the first value, `utils.py:363-368`: `range(0, m, size)`. -/
def groupsFwd (l : List α) (size : ℕ) : List (List α) :=
  ((List.range l.length).filter fun i => decide (i % size = 0)).map fun i => slice l i (i + size)

/-- Groups starting from the last value, `utils.py:359-362`: `range(m - 1, -1, -size)`, group `max(0, i - size + 1) : i + 1`. -/
def groupsBwd (l : List α) (size : ℕ) : List (List α) :=
  ((List.range l.length).filter fun i => decide (i % size = 0)).map fun k =>
    slice l (l.length - 1 - k + 1 - size) (l.length - 1 - k + 1)

/-- `_apply_grouping` for one value, `utils.py:373-383`: every value of a group but its first becomes the first; comparisons are with the
original value. -/
def regroup (groups : List (List α)) (v : α) : α :=
  groups.foldl (fun r g => match g with
    | [] => r
    | h :: t => if v ∈ t then h else r) v

/-- The string specifications `"!bin::n"` and `"!!bin::n"`, and `"bin::n"` on values that are not numbers, `utils.py:337-351`.  A zero step
raises an error. -/
def binConsecutive (fromLast : Bool) (size : ℕ) (vs : List α) : Option (List α) :=
  if size = 0 then none
  else some (vs.map (regroup (if fromLast then groupsBwd (levels vs) size else groupsFwd (levels vs) size)))

/-- `"bin::n"` on numbers, `utils.py:346-347` (floor division). -/
def binNumber {K : Type*} [Field K] [LinearOrder K] [FloorRing K] (size : ℕ) (vs : List K) : List K :=
  vs.map fun v => ((⌊v / (size : K)⌋ : ℤ) : K) * (size : K)

/-- `"@pattern"`, `utils.py:318-334`; `m` says whether the pattern matches the printed value. -/
def binRegex (m : α → Bool) (vs : List α) : Option (List α) :=
  match (levels vs).filter m with
  | [] => none
  | h :: t => some (vs.map fun v => if v ∈ t then h else v)

/-- A list of values, `utils.py:386-402`. -/
def binList (spec vs : List α) : List α :=
  match spec.filter fun x => decide (x ∈ vs) with
  | [] => vs
  | h :: t => vs.map fun v => if v ∈ t then h else v

/-- A dictionary from new names to old values, `utils.py:405-421`; entries with a pattern are given by the values they match.  `store` is what
the array keeps of a name assigned to it (numpy arrays of text have a fixed width). -/
def binDict (store : α → α) (spec : List (α × List α)) (vs : List α) : List α :=
  vs.map fun v => spec.foldl (fun r e => if v ∈ e.2 then store e.1 else r) v

/-- The width of a numpy array of text: the length of its longest value. -/
def width (vs : List String) : ℕ := (vs.map String.length).foldr max 0

/-- `result[values == val] = new_name` on text: the name is cut at the width of the array, `utils.py:407,419`. -/
def storeText (vs : List String) (s : String) : String := String.ofList (s.toList.take (width vs))

/-- The levels that get a column, `utils.py:219-231` (`ref=True` is the first level). -/
inductive Ref (α : Type*) where
  | none
  | first
  | these (l : List α)

/-- Levels after dropping references and applying `keep`, `utils.py:219-231,234-244`. -/
def kept (ref : Ref α) (keep : Option (List α)) (vs : List α) : List α :=
  let l := levels vs
  let l := match ref with
    | .none => l
    | .first => match l with
      | [] => []
      | h :: _ => l.filter fun x => decide (x ∉ [h])
    | .these r => l.filter fun x => decide (x ∉ r)
  match keep with
  | none => l
  | some k => l.filter fun x => decide (x ∈ k)

variable {K : Type*} [Field K]

/-- Dummy columns, `utils.py:279-289`: the column of level `f`. -/
def dummies (ref : Ref α) (keep : Option (List α)) (vs : List α) : List (α × List K) :=
  (kept ref keep vs).map fun f => (f, vs.map fun v => if v = f then 1 else 0)

/-- Interaction with a number, `utils.py:265-276`. -/
def numInteractions (ref : Ref α) (keep : Option (List α)) (vs : List α) (xs : List K) : List (α × List K) :=
  (kept ref keep vs).map fun f => (f, List.zipWith (fun v x => if v = f then x else 0) vs xs)

/-- Interaction with a second factor, `utils.py:233-262`: a column for each pair of levels that occurs. -/
def factorInteractions (ref : Ref α) (keep : Option (List α)) (ref2 : Ref β) (keep2 : Option (List β)) (vs : List α) (ws : List β) :
    List ((α × β) × List K) :=
  (kept ref keep vs).flatMap fun f => ((kept ref2 keep2 ws).filter fun w => decide ((f, w) ∈ vs.zip ws)).map fun w =>
    ((f, w), List.zipWith (fun v u => if v = f ∧ u = w then 1 else 0) vs ws)

/-- Column names without `name`, `utils.py:260,289`. -/
def pairName (p : String × String) : String := p.1 ++ ":" ++ p.2

/-! ## Specification -/

/-- The distinct values of `vs` in increasing order. -/
def IsLevels (vs l : List α) : Prop := l.Pairwise (· < ·) ∧ ∀ x, x ∈ l ↔ x ∈ vs

theorem levels_spec (vs : List α) : IsLevels vs (levels vs) := by
  constructor
  · have h1 : (levels vs).Pairwise (· ≤ ·) := List.pairwise_insertionSort _ _
    have h2 : (levels vs).Nodup := (List.perm_insertionSort _ _).nodup_iff.2 (List.nodup_dedup vs)
    exact (h1.and h2).imp fun h => lt_of_le_of_ne h.1 h.2
  · intro x
    unfold levels
    rw [(List.perm_insertionSort _ _).mem_iff, List.mem_dedup]

theorem levels_unique (vs l : List α) (h : IsLevels vs l) : l = levels vs := by
  have h2 := levels_spec vs
  refine List.Perm.eq_of_pairwise (le := (· < ·)) (fun a b _ _ h1 h2 => absurd h1 (lt_asymm h2)) h.1 h2.1 ?_
  refine (List.perm_ext_iff_of_nodup (h.1.imp fun h => ne_of_lt h) (h2.1.imp fun h => ne_of_lt h)).2 fun x => ?_
  rw [h.2, h2.2]

/-! ## C245 -/

theorem foldl_regroup (groups : List (List α)) (v h r : α) (hr : r = v ∨ r = h) (hall : ∀ g ∈ groups, v ∈ g → g.head? = some h)
    (hex : (∃ g ∈ groups, v ∈ g) ∨ r = h) :
    groups.foldl (fun r g => match g with
      | [] => r
      | a :: t => if v ∈ t then a else r) r = h := by
  induction groups generalizing r with
  | nil => simpa using hex
  | cons g gs ih =>
    rw [List.foldl_cons]
    have hgs : ∀ g ∈ gs, v ∈ g → g.head? = some h := fun g hg => hall g (List.mem_cons_of_mem _ hg)
    have hg := hall g (by simp)
    cases g with
    | nil =>
      refine ih r hr hgs ?_
      rcases hex with ⟨g', hg', hv⟩ | hx
      · rcases List.mem_cons.1 hg' with rfl | hm
        · simp at hv
        · exact Or.inl ⟨g', hm, hv⟩
      · exact Or.inr hx
    | cons a t =>
      dsimp only
      by_cases hv : v ∈ t
      · rw [if_pos hv]
        have : a = h := by simpa using hg (List.mem_cons_of_mem _ hv)
        exact ih a (Or.inr this) hgs (Or.inr this)
      · rw [if_neg hv]
        refine ih r hr hgs ?_
        rcases hex with ⟨g', hg', hv'⟩ | hx
        · rcases List.mem_cons.1 hg' with rfl | hm
          · rcases List.mem_cons.1 hv' with rfl | hv'
            · right
              have hah : v = h := by simpa using hg (by simp)
              rcases hr with rfl | rfl
              · exact hah
              · rfl
            · exact absurd hv' hv
          · exact Or.inl ⟨g', hm, hv'⟩
        · exact Or.inr hx

theorem regroup_eq (groups : List (List α)) (v h : α) (hall : ∀ g ∈ groups, v ∈ g → g.head? = some h) (hex : ∃ g ∈ groups, v ∈ g) :
    regroup groups v = h := foldl_regroup groups v h v (Or.inl rfl) hall (Or.inl hex)

theorem mem_slice (l : List α) (a b : ℕ) (v : α) : v ∈ slice l a b ↔ ∃ i, a ≤ i ∧ i < b ∧ l[i]? = some v := by
  unfold slice
  rw [List.mem_iff_getElem?]
  constructor
  · rintro ⟨i, hi⟩
    rw [List.getElem?_drop, List.getElem?_take] at hi
    split_ifs at hi with h
    exact ⟨a + i, by omega, h, hi⟩
  · rintro ⟨i, ha, hb, hi⟩
    refine ⟨i - a, ?_⟩
    rw [List.getElem?_drop, List.getElem?_take, if_pos (by omega)]
    rw [show a + (i - a) = i by omega]; exact hi

theorem slice_head (l : List α) (a b : ℕ) (h : a < b) : (slice l a b).head? = l[a]? := by
  unfold slice
  rw [List.head?_drop, List.getElem?_take, if_pos h]

theorem index_unique (l : List α) (h : l.Pairwise (· < ·)) (i j : ℕ) (v : α) (hi : l[i]? = some v) (hj : l[j]? = some v) : i = j := by
  have hn : l.Nodup := h.imp fun h => ne_of_lt h
  have h1 := (List.getElem?_eq_some_iff.1 hi)
  have h2 := (List.getElem?_eq_some_iff.1 hj)
  obtain ⟨a, ha⟩ := h1
  obtain ⟨b, hb⟩ := h2
  exact (hn.getElem_inj_iff).1 (ha.trans hb.symm)

theorem range_mem_mod (m size i : ℕ) : i ∈ (List.range m).filter (fun i => decide (i % size = 0)) ↔ i < m ∧ i % size = 0 := by
  rw [List.mem_filter, List.mem_range, decide_eq_true_eq]

/-- **C245.**  `"!bin::n"` (and `"bin::n"` on text) with `n ≥ 1` replaces the value of rank `j` (counting distinct values from the smallest, from
zero) by the value of rank `n * (j / n)`: blocks of `n` distinct values counted from the first, each named after its smallest value. -/
theorem C245_from_first (size : ℕ) (hs : 0 < size) (vs l : List α) (hl : IsLevels vs l) :
    ∃ out, binConsecutive false size vs = some out ∧ out.length = vs.length ∧
      ∀ (i j : ℕ) v, vs[i]? = some v → l[j]? = some v → out[i]? = l[size * (j / size)]? := by
  refine ⟨_, if_neg (by omega), by simp, fun i j v hi hj => ?_⟩
  rw [List.getElem?_map, hi, Option.map_some]
  rw [if_neg (by simp), ← levels_unique vs l hl]
  have hjl : j < l.length := (List.getElem?_eq_some_iff.1 hj).1
  have hdm := Nat.div_add_mod j size
  have hml := Nat.mod_lt j hs
  have hlt : size * (j / size) < l.length := by omega
  rw [List.getElem?_eq_getElem hlt]
  refine congrArg some (regroup_eq _ v _ ?_ ?_)
  · intro g hg hv
    obtain ⟨k, hk, rfl⟩ := List.mem_map.1 hg
    obtain ⟨_, hk0⟩ := (range_mem_mod _ _ _).1 hk
    obtain ⟨i', h1, h2, h3⟩ := (mem_slice _ _ _ _).1 hv
    have := index_unique l hl.1 i' j v h3 hj
    subst this
    have hkk : k = size * (i' / size) := by
      obtain ⟨c, rfl⟩ := Nat.dvd_of_mod_eq_zero hk0
      congr 1
      symm
      exact Nat.div_eq_of_lt_le (by rw [mul_comm]; exact h1) (by rw [mul_comm, Nat.mul_succ]; exact h2)
    rw [slice_head _ _ _ (by omega), hkk, List.getElem?_eq_getElem hlt]
  · refine ⟨slice l (size * (j / size)) (size * (j / size) + size), List.mem_map.2 ⟨size * (j / size), ?_, rfl⟩, ?_⟩
    · exact (range_mem_mod _ _ _).2 ⟨hlt, Nat.mul_mod_right _ _⟩
    · exact (mem_slice _ _ _ _).2 ⟨j, by omega, by omega, hj⟩

/-- **C245.**  `"!!bin::n"` with `n ≥ 1` counts from the largest: if `v` has `j` distinct values above it, it is replaced by the value with
`n * (j / n + 1) - 1` distinct values above it, or the smallest value if there are not so many. -/
theorem C245_from_last (size : ℕ) (hs : 0 < size) (vs l : List α) (hl : IsLevels vs l) :
    ∃ out, binConsecutive true size vs = some out ∧ out.length = vs.length ∧
      ∀ (i j : ℕ) v, j < l.length → vs[i]? = some v → l[l.length - 1 - j]? = some v →
        out[i]? = l[l.length - size * (j / size + 1)]? := by
  refine ⟨_, if_neg (by omega), by simp, fun i j v hjl hi hj => ?_⟩
  rw [List.getElem?_map, hi, Option.map_some]
  rw [if_pos rfl, ← levels_unique vs l hl]
  have hdm := Nat.div_add_mod j size
  have hml := Nat.mod_lt j hs
  have hmul : size * (j / size + 1) = size * (j / size) + size := Nat.mul_succ _ _
  have hlt : l.length - size * (j / size + 1) < l.length := by omega
  rw [List.getElem?_eq_getElem hlt]
  refine congrArg some (regroup_eq _ v _ ?_ ?_)
  · intro g hg hv
    obtain ⟨k, hk, rfl⟩ := List.mem_map.1 hg
    obtain ⟨hkl, hk0⟩ := (range_mem_mod _ _ _).1 hk
    obtain ⟨i', h1, h2, h3⟩ := (mem_slice _ _ _ _).1 hv
    have hi' := index_unique l hl.1 i' _ v h3 hj
    subst hi'
    have hkk : k = size * (j / size) := by
      obtain ⟨c, rfl⟩ := Nat.dvd_of_mod_eq_zero hk0
      congr 1
      symm
      refine Nat.div_eq_of_lt_le (by rw [mul_comm]; omega) ?_
      rw [mul_comm, Nat.mul_succ]
      omega
    rw [slice_head _ _ _ (by omega), ← List.getElem?_eq_getElem hlt]
    congr 1
    omega
  · refine ⟨slice l (l.length - 1 - size * (j / size) + 1 - size) (l.length - 1 - size * (j / size) + 1),
      List.mem_map.2 ⟨size * (j / size), (range_mem_mod _ _ _).2 ⟨by omega, Nat.mul_mod_right _ _⟩, rfl⟩, ?_⟩
    exact (mem_slice _ _ _ _).2 ⟨_, by omega, by omega, hj⟩

/-- Five distinct values in pairs: from the first `1,1,3,3,5`; from the last `1,2,2,4,4`. -/
example : binConsecutive false 2 [3, 1, 5, 4, 2, 1] = some [3, 1, 5, 3, 1, 1] := by decide +kernel

example : binConsecutive true 2 [3, 1, 5, 4, 2, 1] = some [2, 1, 4, 4, 2, 1] := by decide +kernel

example : IsLevels [3, 1, 5, 4, 2, 1] [1, 2, 3, 4, 5] := ⟨by decide, fun x => by simp; tauto⟩

/-- **C245.**  A block size is refused exactly if it is zero, in either direction. -/
theorem C245_refused (fromLast : Bool) (size : ℕ) (vs : List α) : binConsecutive fromLast size vs = none ↔ size = 0 := by
  unfold binConsecutive
  split_ifs with h
  · simp [h]
  · simp [h]

example : binConsecutive true 0 [3, 1, 2] = none ∧ binConsecutive true 2 [3, 1, 2] ≠ none := by decide

/-- **C245.**  `"bin::n"` on numbers rounds down to a multiple of `n`. -/
theorem C245_number {F : Type*} [Field F] [LinearOrder F] [IsStrictOrderedRing F] [FloorRing F] (size : ℕ) (hs : 0 < size) (vs : List F) :
    (binNumber size vs).length = vs.length ∧ ∀ (i : ℕ) v, vs[i]? = some v →
      ∃ k : ℤ, (binNumber size vs)[i]? = some ((k : F) * size) ∧ (k : F) * size ≤ v ∧ v < (k : F) * size + size := by
  refine ⟨by simp [binNumber], fun i v hv => ⟨⌊v / size⌋, ?_, ?_, ?_⟩⟩
  · unfold binNumber
    rw [List.getElem?_map, hv, Option.map_some]
  · have hpos : (0 : F) < size := by exact_mod_cast hs
    have := Int.floor_le (v / (size : F))
    rwa [le_div_iff₀ hpos] at this
  · have hpos : (0 : F) < size := by exact_mod_cast hs
    have := Int.lt_floor_add_one (v / (size : F))
    rw [div_lt_iff₀ hpos] at this
    linarith

example : binNumber 2 [(11 / 2 : ℚ), 81 / 10, -1] = [4, 8, -2] := by decide +kernel

/-- **C245.**  `"@pattern"` is refused if no value matches; otherwise every matching value becomes the smallest matching value and the others
stay. -/
theorem C245_regex (m : α → Bool) (vs : List α) :
    (binRegex m vs = none ↔ ∀ v ∈ vs, m v = false) ∧
      ∀ out, binRegex m vs = some out → ∃ h ∈ vs, m h = true ∧ (∀ v ∈ vs, m v = true → h ≤ v) ∧
        out = vs.map fun v => if m v then h else v := by
  have hmem : ∀ x, x ∈ (levels vs).filter m ↔ x ∈ vs ∧ m x = true := by
    intro x; rw [List.mem_filter, (levels_spec vs).2]
  have hsort : ((levels vs).filter m).Pairwise (· < ·) := (levels_spec vs).1.filter _
  unfold binRegex
  cases hf : (levels vs).filter m with
  | nil =>
    rw [hf] at hmem
    refine ⟨⟨fun _ v hv => ?_, fun _ => rfl⟩, fun out h => by simp at h⟩
    by_contra hc
    have := (hmem v).2 ⟨hv, by simpa using hc⟩
    simp at this
  | cons h t =>
    rw [hf] at hmem hsort
    obtain ⟨hh1, hh2⟩ := (hmem h).1 (by simp)
    refine ⟨⟨fun h => by simp at h, fun hall => ?_⟩, fun out ho => ⟨h, hh1, hh2, ?_, ?_⟩⟩
    · rw [hall h hh1] at hh2; simp at hh2
    · intro v hv hm
      rcases List.mem_cons.1 ((hmem v).2 ⟨hv, hm⟩) with rfl | ht
      · exact le_rfl
      · exact ((List.pairwise_cons.1 hsort).1 v ht).le
    · dsimp only at ho
      rw [← Option.some.inj ho]
      refine List.map_congr_left fun v hv => ?_
      by_cases hm : m v = true
      · rw [if_pos hm]
        rcases List.mem_cons.1 ((hmem v).2 ⟨hv, hm⟩) with rfl | ht
        · simp
        · rw [if_pos ht]
      · rw [if_neg hm, if_neg]
        intro ht
        exact hm ((hmem v).1 (List.mem_cons_of_mem _ ht)).2

example : binRegex (fun n : ℕ => decide (5 ≤ n)) [7, 1, 6, 9] = some [6, 1, 6, 6] := by decide +kernel

/-- **C245.**  With a list, every listed value becomes the first listed value that occurs, and the others stay. -/
theorem C245_list (spec vs : List α) :
    (binList spec vs).length = vs.length ∧ ∀ (i : ℕ) v, vs[i]? = some v →
      (v ∉ spec → (binList spec vs)[i]? = some v) ∧
      (v ∈ spec → (binList spec vs)[i]? = (spec.find? fun x => decide (x ∈ vs))) := by
  have hfind : (spec.find? fun x => decide (x ∈ vs)) = (spec.filter fun x => decide (x ∈ vs)).head? := by
    rw [List.head?_filter]
  rw [hfind]
  have hmem : ∀ x, x ∈ (spec.filter fun x => decide (x ∈ vs)) ↔ x ∈ spec ∧ x ∈ vs := by
    intro x; rw [List.mem_filter, decide_eq_true_eq]
  unfold binList
  cases hf : spec.filter (fun x => decide (x ∈ vs)) with
  | nil =>
    rw [hf] at hmem
    refine ⟨rfl, fun i v hv => ⟨fun _ => hv, fun hs => ?_⟩⟩
    have := (hmem v).2 ⟨hs, List.mem_of_getElem? hv⟩
    simp at this
  | cons h t =>
    rw [hf] at hmem
    refine ⟨by simp, fun i v hv => ⟨fun hs => ?_, fun hs => ?_⟩⟩
    · dsimp only
      rw [List.getElem?_map, hv, Option.map_some, if_neg]
      intro ht
      exact hs ((hmem v).1 (List.mem_cons_of_mem _ ht)).1
    · dsimp only
      rw [List.getElem?_map, hv, Option.map_some, List.head?_cons]
      rcases List.mem_cons.1 ((hmem v).2 ⟨hs, List.mem_of_getElem? hv⟩) with rfl | ht
      · simp
      · rw [if_pos ht]

example : binList ["dog", "eel", "cat"] ["cat", "dog", "bird"] = ["dog", "dog", "bird"] := by decide +kernel

/-- **C245.**  With a dictionary, a value named in no entry stays, and a value gets the name of the last entry that lists it, as the array
stores it.  Entries apply to the original values: a new name is not renamed again. -/
theorem C245_dict (store : α → α) (spec : List (α × List α)) (vs : List α) :
    (binDict store spec vs).length = vs.length ∧ ∀ (i : ℕ) v, vs[i]? = some v →
      ((∀ e ∈ spec, v ∉ e.2) → (binDict store spec vs)[i]? = some v) ∧
      ∀ pre e post, spec = pre ++ e :: post → v ∈ e.2 → (∀ e' ∈ post, v ∉ e'.2) → (binDict store spec vs)[i]? = some (store e.1) := by
  have hnone : ∀ (l : List (α × List α)) (r v : α), (∀ e ∈ l, v ∉ e.2) →
      l.foldl (fun r e => if v ∈ e.2 then store e.1 else r) r = r := by
    intro l r v
    induction l generalizing r with
    | nil => intro _; rfl
    | cons e l ih =>
      intro h
      rw [List.foldl_cons, if_neg (h e (by simp))]
      exact ih r fun e he => h e (List.mem_cons_of_mem _ he)
  refine ⟨by simp [binDict], fun i v hv => ⟨fun h => ?_, fun pre e post he hve hpost => ?_⟩⟩
  · unfold binDict
    rw [List.getElem?_map, hv, Option.map_some, hnone spec v v h]
  · unfold binDict
    rw [List.getElem?_map, hv, Option.map_some, he, List.foldl_append, List.foldl_cons, if_pos hve, hnone post _ v hpost]

/-- `{2: [1], 3: [2]}`: ones become two, not three. -/
example : binDict id [(2, [1]), (3, [2])] [1, 2, 5] = [2, 3, 5] := by decide +kernel

/-- **C245.**  On text, if every new name used is no longer than the longest value, names are stored as given. -/
theorem C245_text (spec : List (String × List String)) (vs : List String) (h : ∀ e ∈ spec, ∃ v ∈ vs, e.1.length ≤ v.length) :
    binDict (storeText vs) spec vs = binDict id spec vs := by
  have hw : ∀ v ∈ vs, v.length ≤ width vs := by
    intro v hv
    unfold width
    clear h
    induction vs with
    | nil => simp at hv
    | cons a l ih =>
      rw [List.map_cons, List.foldr_cons]
      rcases List.mem_cons.1 hv with rfl | hv
      · exact le_max_left _ _
      · exact le_trans (ih hv) (le_max_right _ _)
  unfold binDict
  refine List.map_congr_left fun v hv => ?_
  have : ∀ (l : List (String × List String)) (r : String), (∀ e ∈ l, e ∈ spec) →
      l.foldl (fun r e => if v ∈ e.2 then storeText vs e.1 else r) r = l.foldl (fun r e => if v ∈ e.2 then id e.1 else r) r := by
    intro l
    induction l with
    | nil => intro r _; rfl
    | cons e l ih =>
      intro r hl
      rw [List.foldl_cons, List.foldl_cons]
      have he : storeText vs e.1 = id e.1 := by
        obtain ⟨u, hu, hle⟩ := h e (hl e (by simp))
        unfold storeText
        rw [List.take_of_length_le (by rw [String.length_toList]; exact le_trans hle (hw u hu)), String.ofList_toList]
        rfl
      rw [he]
      exact ih _ fun e he => hl e (List.mem_cons_of_mem _ he)
  exact this spec v fun e he => he

example : binDict (storeText ["cat", "dog", "lizard"]) [("mammal", ["cat", "dog"])] ["cat", "dog", "lizard"] =
    binDict id [("mammal", ["cat", "dog"])] ["cat", "dog", "lizard"] :=
  C245_text _ _ (by intro e he; rw [List.mem_singleton] at he; subst he; exact ⟨"lizard", by simp, by decide⟩)

/-- **C245 (violated).**  A new name longer than the longest value is cut, so that two names that agree on its first characters name the same
bin: bins that were listed separately are merged. -/
theorem C245_names_cut_violated (vs : List String) (a b : String) (olds olds' : List String)
    (hab : a.toList.take (width vs) = b.toList.take (width vs)) (i j : ℕ) (v w : String) (hi : vs[i]? = some v) (hj : vs[j]? = some w)
    (hv : v ∈ olds) (hv' : v ∉ olds') (hw : w ∈ olds') :
    (binDict (storeText vs) [(a, olds), (b, olds')] vs)[i]? = (binDict (storeText vs) [(a, olds), (b, olds')] vs)[j]? := by
  have e1 := ((C245_dict (storeText vs) [(a, olds), (b, olds')] vs).2 i v hi).2 [] (a, olds) [(b, olds')] rfl hv (by simpa using hv')
  have e2 := ((C245_dict (storeText vs) [(a, olds), (b, olds')] vs).2 j w hj).2 [(a, olds)] (b, olds') [] rfl hw (by simp)
  rw [e1, e2]
  unfold storeText
  rw [hab]

/-- `{"north-east": ["a"], "north-west": ["b"]}` on one-letter values gives `n`, `n`. -/
example : binDict (storeText ["a", "b", "c"]) [("north-east", ["a"]), ("north-west", ["b"])] ["a", "b", "c"] = ["n", "n", "c"] := by
  decide +kernel

/-! ## C246 -/

theorem kept_sorted (ref : Ref α) (keep : Option (List α)) (vs : List α) : (kept ref keep vs).Pairwise (· < ·) := by
  have h := (levels_spec vs).1
  unfold kept
  dsimp only
  have h2 : (match ref with
    | .none => levels vs
    | .first => match levels vs with
      | [] => []
      | h :: _ => (levels vs).filter fun x => decide (x ∉ [h])
    | .these r => (levels vs).filter fun x => decide (x ∉ r)).Pairwise (· < ·) := by
    cases ref with
    | none => exact h
    | first =>
      dsimp only
      split
      · exact List.Pairwise.nil
      · exact h.filter _
    | these r => exact h.filter _
  cases keep with
  | none => exact h2
  | some k => exact h2.filter _

/-- The reference levels asked for: `ref=True` is the smallest value. -/
def IsRef (ref : Ref α) (vs : List α) (x : α) : Prop :=
  match ref with
  | .none => False
  | .first => x ∈ vs ∧ ∀ y ∈ vs, x ≤ y
  | .these r => x ∈ r

theorem mem_kept (ref : Ref α) (keep : Option (List α)) (vs : List α) (x : α) :
    x ∈ kept ref keep vs ↔ x ∈ vs ∧ ¬ IsRef ref vs x ∧ ∀ k, keep = some k → x ∈ k := by
  have hl := levels_spec vs
  have h2 : ∀ x, x ∈ (match ref with
    | .none => levels vs
    | .first => match levels vs with
      | [] => []
      | h :: _ => (levels vs).filter fun x => decide (x ∉ [h])
    | .these r => (levels vs).filter fun x => decide (x ∉ r)) ↔ x ∈ vs ∧ ¬ IsRef ref vs x := by
    intro x
    cases ref with
    | none => simp [IsRef, hl.2]
    | these r => simp [IsRef, hl.2]
    | first =>
      dsimp only [IsRef]
      cases hlv : levels vs with
      | nil =>
        have hv : x ∉ vs := by rw [← hl.2, hlv]; simp
        simp [hv]
      | cons h t =>
        rw [hlv] at hl
        dsimp only
        rw [List.mem_filter, decide_eq_true_eq, List.mem_singleton, hl.2]
        refine and_congr_right fun hx => not_congr ⟨?_, ?_⟩
        · rintro rfl
          refine ⟨hx, fun y hy => ?_⟩
          rcases List.mem_cons.1 ((hl.2 y).2 hy) with rfl | ht
          · exact le_rfl
          · exact ((List.pairwise_cons.1 hl.1).1 y ht).le
        · rintro ⟨_, hmin⟩
          rcases List.mem_cons.1 ((hl.2 x).2 hx) with rfl | ht
          · rfl
          · exact le_antisymm (hmin h ((hl.2 h).1 (by simp))) ((List.pairwise_cons.1 hl.1).1 x ht).le
  unfold kept
  dsimp only
  cases keep with
  | none => rw [h2]; simp
  | some k => rw [List.mem_filter, decide_eq_true_eq, h2, and_assoc]; simp

/-- **C246.**  Dummy variables: columns belong to the observed values that are no reference and are kept, in increasing order without
repetition; the column of `f` is one where the factor equals `f` and zero elsewhere. -/
theorem C246_dummies (ref : Ref α) (keep : Option (List α)) (vs : List α) :
    ((dummies (K := K) ref keep vs).map Prod.fst).Pairwise (· < ·) ∧
    (∀ f, f ∈ (dummies (K := K) ref keep vs).map Prod.fst ↔ f ∈ vs ∧ ¬ IsRef ref vs f ∧ ∀ k, keep = some k → f ∈ k) ∧
    ∀ f c, (f, c) ∈ dummies (K := K) ref keep vs → c.length = vs.length ∧
      ∀ (i : ℕ) v, vs[i]? = some v → (v = f → c[i]? = some 1) ∧ (v ≠ f → c[i]? = some 0) := by
  have hfst : (dummies (K := K) ref keep vs).map Prod.fst = kept ref keep vs := by simp [dummies, Function.comp_def]
  refine ⟨by rw [hfst]; exact kept_sorted ref keep vs, fun f => by rw [hfst]; exact mem_kept ref keep vs f, fun f c h => ?_⟩
  obtain ⟨f', _, he⟩ := List.mem_map.1 h
  simp only [Prod.mk.injEq] at he
  obtain ⟨rfl, rfl⟩ := he
  refine ⟨by simp, fun i v hv => ⟨fun h => ?_, fun h => ?_⟩⟩
  · rw [List.getElem?_map, hv, Option.map_some, if_pos h]
  · rw [List.getElem?_map, hv, Option.map_some, if_neg h]

theorem sum_single (l : List α) (hn : l.Nodup) (v : α) (x : K) : (l.map fun f => if v = f then x else 0).sum = if v ∈ l then x else 0 := by
  induction l with
  | nil => simp
  | cons a l ih =>
    rw [List.map_cons, List.sum_cons, ih (List.nodup_cons.1 hn).2]
    by_cases h : v = a
    · subst h
      rw [if_pos rfl, if_neg (List.nodup_cons.1 hn).1, if_pos (by simp), add_zero]
    · rw [if_neg h, zero_add]
      have : v ∈ a :: l ↔ v ∈ l := by simp [h]
      simp only [this]

/-- The value of a row of a table of columns. -/
def rowSum {ι : Type*} (t : List (ι × List K)) (i : ℕ) : K := (t.map fun c => c.2.getD i 0).sum

/-- **C246.**  Without references every row of the dummies sums to one, so that they cannot be used beside a constant; with `ref=True` the rows
of the smallest value sum to zero and the others to one.  In general a row sums to one if its value has a column and to zero otherwise. -/
theorem C246_row_sum (ref : Ref α) (keep : Option (List α)) (vs : List α) (i : ℕ) (v : α) (hv : vs[i]? = some v) :
    rowSum (dummies (K := K) ref keep vs) i = if v ∈ kept ref keep vs then 1 else 0 := by
  unfold rowSum dummies
  rw [List.map_map]
  rw [← sum_single (kept ref keep vs) ((kept_sorted ref keep vs).imp fun h => ne_of_lt h) v (1 : K)]
  refine congrArg List.sum (List.map_congr_left fun f _ => ?_)
  simp [hv]

theorem C246_row_sum_all (vs : List α) (i : ℕ) (v : α) (hv : vs[i]? = some v) : rowSum (dummies (K := K) Ref.none none vs) i = 1 := by
  rw [C246_row_sum Ref.none none vs i v hv, if_pos]
  exact (mem_kept _ _ _ _).2 ⟨List.mem_of_getElem? hv, by simp [IsRef], by simp⟩

/-- **C246 (violated).**  A reference level that does not occur is not reported: all columns are returned and still sum to one. -/
theorem C246_unknown_ref_violated (r vs : List α) (h : ∀ x ∈ r, x ∉ vs) (i : ℕ) (v : α) (hv : vs[i]? = some v) :
    rowSum (dummies (K := K) (Ref.these r) none vs) i = 1 := by
  rw [C246_row_sum (Ref.these r) none vs i v hv, if_pos]
  have hm := List.mem_of_getElem? hv
  exact (mem_kept _ _ _ _).2 ⟨hm, fun hr => h v hr hm, by simp⟩

example : dummies (K := ℚ) Ref.first none [2, 1, 3, 2] = [(2, [1, 0, 0, 1]), (3, [0, 0, 1, 0])] := by decide +kernel

example : rowSum (dummies (K := ℚ) (Ref.these [7]) none [2, 1, 3, 2]) 1 = 1 :=
  C246_unknown_ref_violated _ _ (by decide) 1 1 (by decide)

/-- **C246.**  Interaction with a number: the column of `f` is the number where the factor equals `f` and zero elsewhere; the columns of a row
add up to its number if its value has a column. -/
theorem C246_numeric (ref : Ref α) (keep : Option (List α)) (vs : List α) (xs : List K) :
    (numInteractions ref keep vs xs).map Prod.fst = (dummies (K := K) ref keep vs).map Prod.fst ∧
    (∀ f c, (f, c) ∈ numInteractions ref keep vs xs → ∀ (i : ℕ) v x, vs[i]? = some v → xs[i]? = some x →
      (v = f → c[i]? = some x) ∧ (v ≠ f → c[i]? = some 0)) ∧
    ∀ (i : ℕ) v x, vs[i]? = some v → xs[i]? = some x →
      rowSum (numInteractions ref keep vs xs) i = if v ∈ kept ref keep vs then x else 0 := by
  refine ⟨by simp [numInteractions, dummies, Function.comp_def], fun f c h => ?_, fun i v x hv hx => ?_⟩
  · obtain ⟨f', _, he⟩ := List.mem_map.1 h
    simp only [Prod.mk.injEq] at he
    obtain ⟨rfl, rfl⟩ := he
    intro i v x hv hx
    rw [List.getElem?_zipWith, hv, hx]
    constructor
    · intro h; simp [h]
    · intro h; simp [h]
  · unfold rowSum numInteractions
    rw [List.map_map, ← sum_single (kept ref keep vs) ((kept_sorted ref keep vs).imp fun h => ne_of_lt h) v x]
    refine congrArg List.sum (List.map_congr_left fun f _ => ?_)
    simp only [Function.comp_apply]
    rw [List.getD_eq_getElem?_getD, List.getElem?_zipWith, hv, hx]
    rfl

example : numInteractions (K := ℚ) Ref.none none ["a", "b", "a"] [5, 6, 7] = [("a", [5, 0, 7]), ("b", [0, 6, 0])] := by decide +kernel

/-- **C246.**  Interaction of two factors: one column for each pair of levels with a column of its own that occurs together in some row; it is
one in the rows of that pair and zero elsewhere; no column is empty. -/
theorem C246_factors (ref : Ref α) (keep : Option (List α)) (ref2 : Ref β) (keep2 : Option (List β)) (vs : List α) (ws : List β) :
    ((factorInteractions (K := K) ref keep ref2 keep2 vs ws).map Prod.fst).Nodup ∧
    (∀ f w, (f, w) ∈ (factorInteractions (K := K) ref keep ref2 keep2 vs ws).map Prod.fst ↔
      f ∈ kept ref keep vs ∧ w ∈ kept ref2 keep2 ws ∧ ∃ i : ℕ, vs[i]? = some f ∧ ws[i]? = some w) ∧
    ∀ f w c, ((f, w), c) ∈ factorInteractions (K := K) ref keep ref2 keep2 vs ws → ∀ (i : ℕ) v u, vs[i]? = some v → ws[i]? = some u →
      (v = f ∧ u = w → c[i]? = some 1) ∧ (¬ (v = f ∧ u = w) → c[i]? = some 0) := by
  have hfst : (factorInteractions (K := K) ref keep ref2 keep2 vs ws).map Prod.fst =
      (kept ref keep vs).flatMap fun f => ((kept ref2 keep2 ws).filter fun w => decide ((f, w) ∈ vs.zip ws)).map fun w => (f, w) := by
    unfold factorInteractions
    rw [List.map_flatMap]
    refine congrArg (fun h => List.flatMap h (kept ref keep vs)) (funext fun f => ?_)
    rw [List.map_map]
    rfl
  refine ⟨?_, fun f w => ?_, fun f w c h => ?_⟩
  · rw [hfst, List.nodup_flatMap]
    constructor
    · intro f _
      refine List.Nodup.map (fun a b h => (Prod.mk.inj h).2) (((kept_sorted ref2 keep2 ws).imp fun h => ne_of_lt h).filter _)
    · refine (kept_sorted ref keep vs).imp fun {a b} hab => ?_
      intro p hp hq
      obtain ⟨_, _, rfl⟩ := List.mem_map.1 hp
      obtain ⟨_, _, he⟩ := List.mem_map.1 hq
      exact ne_of_lt hab (Prod.mk.inj he).1.symm
  · rw [hfst, List.mem_flatMap]
    have hz : (f, w) ∈ vs.zip ws ↔ ∃ i : ℕ, vs[i]? = some f ∧ ws[i]? = some w := by
      rw [List.mem_iff_getElem?]
      simp only [List.getElem?_zip_eq_some]
    rw [← hz]
    constructor
    · rintro ⟨f', hf', h⟩
      obtain ⟨w', hw', he⟩ := List.mem_map.1 h
      simp only [Prod.mk.injEq] at he
      obtain ⟨rfl, rfl⟩ := he
      obtain ⟨h1, h2⟩ := List.mem_filter.1 hw'
      exact ⟨hf', h1, by simpa using h2⟩
    · rintro ⟨h1, h2, h3⟩
      exact ⟨f, h1, List.mem_map.2 ⟨w, List.mem_filter.2 ⟨h2, by simpa using h3⟩, rfl⟩⟩
  · unfold factorInteractions at h
    obtain ⟨f', _, h⟩ := List.mem_flatMap.1 h
    obtain ⟨w', _, he⟩ := List.mem_map.1 h
    simp only [Prod.mk.injEq] at he
    obtain ⟨⟨rfl, rfl⟩, rfl⟩ := he
    intro i v u hv hu
    rw [List.getElem?_zipWith, hv, hu]
    constructor
    · intro h; simp [h]
    · intro h; simp only; rw [if_neg h]

example : factorInteractions (K := ℚ) Ref.none none Ref.none none ["a", "b", "a"] ["x", "x", "y"] =
    [(("a", "x"), [1, 0, 0]), (("a", "y"), [0, 0, 1]), (("b", "x"), [0, 1, 0])] := by decide +kernel

/-- **C246.**  The names of plain dummies are distinct, also behind a common prefix. -/
theorem C246_names (pre : String) (ref : Ref String) (keep : Option (List String)) (vs : List String) :
    ((dummies (K := K) ref keep vs).map fun c => pre ++ "::" ++ c.1).Nodup := by
  have hfst : (dummies (K := K) ref keep vs).map (fun c => pre ++ "::" ++ c.1) = (kept ref keep vs).map fun f => pre ++ "::" ++ f := by
    simp [dummies, Function.comp_def]
  rw [hfst]
  refine List.Nodup.map (fun a b h => ?_) ((kept_sorted ref keep vs).imp fun h => ne_of_lt h)
  have := congrArg String.toList h
  simp only [String.toList_append, List.append_cancel_left_eq] at this
  exact String.toList_injective this

example : ((dummies (K := ℚ) Ref.none none ["b", "a", "b"]).map fun c => "state" ++ "::" ++ c.1).Nodup :=
  C246_names "state" _ _ _

/-- **C246 (violated).**  Names of interactions of two factors need not be distinct: whatever `a`, `b`, `c`, the pairs `(a:b, c)` and `(a, b:c)`
have the same name. -/
theorem C246_pair_names_violated (a b c : String) : pairName (a ++ ":" ++ b, c) = pairName (a, b ++ ":" ++ c) := by
  unfold pairName
  simp only [String.append_assoc]

/-- Two different columns named `1:2:3`. -/
example : (factorInteractions (K := ℚ) Ref.none none Ref.none none ["1:2", "1"] ["3", "2:3"]).map (fun c => (pairName c.1, c.2)) =
    [("1:2:3", [0, 1]), ("1:2:3", [1, 0])] := by decide +kernel

end Verif.Honest.Factor
