import Verif.Cont.Subset

set_option linter.unusedSectionVars false
set_option linter.unusedSimpArgs false

/-!
# `setup_pte`: recoding of periods and cohorts (C224)

Models the recoding of `moderndid/didcont/estimation/process_panel.py:378-398` (`setup_pte`, used by `pte_default`, `setup_pte_cont` and
by every empirical bootstrap replicate) and `_two_by_two_subset` (`process_panel.py:743-783`).
-/

namespace Verif.Cont

variable {K : Type*}

/-! ## Model -/

/-- A row of the frame: unit, calendar period, cohort (`0` and infinity: never treated), outcome. -/
structure PRow (K : Type*) where
  id : ℕ
  t : ℤ
  g : WithTop ℤ
  y : K

/-- `_map_to_idx(v, time_map)` for one finite value, `core/preprocess/utils.py:13-31`, `process_panel.py:389-390`; `ps` are the sorted
distinct periods. -/
def mapFin (ps : List ℤ) (v : ℤ) : ℤ := if v ∈ ps then (ps.idxOf v : ℤ) + 1 else v

/-- `_map_to_idx` for a cohort; infinity is kept, `core/preprocess/utils.py:24-27`. -/
def mapIdx (ps : List ℤ) (v : WithTop ℤ) : WithTop ℤ := v.map (mapFin ps)

/-- The added columns `period` and `G`, `process_panel.py:392-395`. -/
def recodeRow (ps : List ℤ) (r : PRow K) : PRow K := { r with t := mapFin ps r.t, g := mapIdx ps r.g }

/-- `unit_mask`, `process_panel.py:760-763`. -/
def cellUnit (notyet : Bool) (g tp : ℤ) (G : WithTop ℤ) : Prop :=
  if notyet then G = (g : WithTop ℤ) ∨ (tp : WithTop ℤ) < G ∨ G = ((0 : ℤ) : WithTop ℤ)
  else G = (g : WithTop ℤ) ∨ G = ⊤ ∨ G = ((0 : ℤ) : WithTop ℤ)

/-- `base_period_val`, `process_panel.py:753-758`. -/
def cellBase (universal : Bool) (ant g tp : ℤ) : ℤ :=
  if universal then g - ant - 1 else if tp < g - ant then tp - 1 else g - ant - 1

/-- The rows `_two_by_two_subset` keeps from the recoded frame, `process_panel.py:760-768`. -/
def cellRow (notyet universal : Bool) (ant g tp : ℤ) (r : PRow K) : Prop :=
  cellUnit notyet g tp r.g ∧ (r.t = tp ∨ r.t = cellBase universal ant g tp)

/-! ## Lemmas -/

theorem mapFin_get (ps : List ℤ) (hps : ps.Pairwise (· < ·)) (i : ℕ) (hi : i < ps.length) : mapFin ps ps[i] = (i : ℤ) + 1 := by
  unfold mapFin
  rw [if_pos (List.getElem_mem hi), List.Nodup.idxOf_getElem (hps.imp fun h => ne_of_lt h)]

theorem mapFin_zero (ps : List ℤ) (hpos : ∀ p ∈ ps, 0 < p) : mapFin ps 0 = 0 := by
  unfold mapFin
  rw [if_neg fun h => lt_irrefl _ (hpos 0 h)]

theorem mem_get (ps : List ℤ) (v : ℤ) (hv : v ∈ ps) : ∃ (i : ℕ) (hi : i < ps.length), ps[i] = v := by
  obtain ⟨i, hi, h⟩ := List.mem_iff_getElem.1 hv
  exact ⟨i, hi, h⟩

theorem get_lt_iff (ps : List ℤ) (hps : ps.Pairwise (· < ·)) (i j : ℕ) (hi : i < ps.length) (hj : j < ps.length) :
    ps[i] < ps[j] ↔ i < j := by
  constructor
  · intro h
    by_contra hc
    rcases Nat.lt_or_eq_of_le (not_lt.1 hc) with h2 | h2
    · exact absurd (List.pairwise_iff_getElem.1 hps j i hj hi h2) (not_lt.2 h.le)
    · subst h2; exact lt_irrefl _ h
  · exact List.pairwise_iff_getElem.1 hps i j hi hj

theorem get_inj (ps : List ℤ) (hps : ps.Pairwise (· < ·)) (i j : ℕ) (hi : i < ps.length) (hj : j < ps.length) :
    ps[i] = ps[j] ↔ i = j := by
  constructor
  · intro h
    rcases Nat.lt_trichotomy i j with h1 | h1 | h1
    · have := (get_lt_iff ps hps i j hi hj).2 h1; omega
    · exact h1
    · have := (get_lt_iff ps hps j i hj hi).2 h1; omega
  · rintro rfl; rfl

/-- In a strictly increasing list of positive integers the `i`-th entry is at least `i + 1`. -/
theorem get_ge (ps : List ℤ) (hps : ps.Pairwise (· < ·)) (hpos : ∀ p ∈ ps, 0 < p) (i : ℕ) (hi : i < ps.length) : (i : ℤ) + 1 ≤ ps[i] := by
  induction i with
  | zero => have := hpos _ (List.getElem_mem hi); omega
  | succ i ih =>
    have h1 := ih (by omega)
    have h2 := (get_lt_iff ps hps i (i + 1) (by omega) hi).2 (by omega)
    push_cast; omega

/-! ## C224 -/

/-- A cohort that the frame can represent: never treated (`0` or infinity) or first treated in an observed period. -/
def Observable (ps : List ℤ) (G : WithTop ℤ) : Prop := G = ⊤ ∨ G = ((0 : ℤ) : WithTop ℤ) ∨ ∃ p ∈ ps, G = (p : WithTop ℤ)

/-- **C224.**  Let `ps` be the observed calendar periods (distinct, positive) and let every cohort be never treated or an observed period.
The cell of the `a`-th and `b`-th observed period consists, in calendar terms, of the rows of the cohort first treated in `ps[a]`, of the
units not yet treated in `ps[b]` (with `control_group="nevertreated"`: never treated), in the evaluated period `ps[b]` and in the base
period, which is the observed period before `ps[b]` for a pre-treatment cell and otherwise the observed period `ant + 1` places before
the treatment: gaps in the calendar play no role. -/
theorem C224_cell (ps : List ℤ) (hps : ps.Pairwise (· < ·)) (hpos : ∀ p ∈ ps, 0 < p) (notyet universal : Bool) (ant a b : ℕ)
    (ha : a < ps.length) (hb : b < ps.length) (hb1 : 1 ≤ b) (hant : ant + 1 ≤ a) (r : PRow K) (hrt : r.t ∈ ps)
    (hrg : Observable ps r.g) :
    cellRow notyet universal (ant : ℤ) ((a : ℤ) + 1) ((b : ℤ) + 1) (recodeRow ps r) ↔
      (r.g = ((ps[a] : ℤ) : WithTop ℤ) ∨ r.g = ((0 : ℤ) : WithTop ℤ) ∨ (if notyet then ((ps[b] : ℤ) : WithTop ℤ) < r.g else r.g = ⊤)) ∧
      (r.t = ps[b] ∨ r.t = if universal = false ∧ b + ant < a then ps[b - 1] else ps[a - ant - 1]) := by
  have hU : cellUnit notyet ((a : ℤ) + 1) ((b : ℤ) + 1) (mapIdx ps r.g) ↔
      (r.g = ((ps[a] : ℤ) : WithTop ℤ) ∨ r.g = ((0 : ℤ) : WithTop ℤ) ∨
        (if notyet then ((ps[b] : ℤ) : WithTop ℤ) < r.g else r.g = ⊤)) := by
    unfold cellUnit
    rcases hrg with h | h | ⟨p, hp, h⟩
    · rw [h]
      have : mapIdx ps ⊤ = ⊤ := rfl
      rw [this]
      cases notyet <;> simp
    · rw [h]
      have : mapIdx ps ((0 : ℤ) : WithTop ℤ) = ((0 : ℤ) : WithTop ℤ) := by
        show ((mapFin ps 0 : ℤ) : WithTop ℤ) = _
        rw [mapFin_zero ps hpos]
      rw [this]
      cases notyet <;> simp
    · obtain ⟨k, hk, rfl⟩ := mem_get ps p hp
      rw [h]
      have : mapIdx ps ((ps[k] : ℤ) : WithTop ℤ) = (((k : ℤ) + 1 : ℤ) : WithTop ℤ) := by
        show ((mapFin ps ps[k] : ℤ) : WithTop ℤ) = _
        rw [mapFin_get ps hps k hk]
      rw [this]
      have h0 : ps[k] ≠ 0 := (hpos _ hp).ne'
      have h0' : (k : ℤ) + 1 ≠ 0 := by omega
      have e1 := get_inj ps hps k a hk ha
      have e2 := get_lt_iff ps hps b k hb hk
      cases notyet
      · simp only [WithTop.coe_inj, WithTop.coe_ne_top, h0, h0', Bool.false_eq_true, if_false, or_false, false_or, e1]
        omega
      · simp only [WithTop.coe_inj, WithTop.coe_lt_coe, h0, h0', if_true, or_false, false_or, e1, e2]
        omega
  have hT : (mapFin ps r.t = (b : ℤ) + 1 ∨ mapFin ps r.t = cellBase universal (ant : ℤ) ((a : ℤ) + 1) ((b : ℤ) + 1)) ↔
      (r.t = ps[b] ∨ r.t = if universal = false ∧ b + ant < a then ps[b - 1] else ps[a - ant - 1]) := by
    obtain ⟨k, hk, hkt⟩ := mem_get ps r.t hrt
    rw [← hkt, mapFin_get ps hps k hk]
    have e1 := get_inj ps hps k b hk hb
    unfold cellBase
    by_cases hc : universal = false ∧ b + ant < a
    · have e2 := get_inj ps hps k (b - 1) hk (by omega)
      rw [if_pos hc, hc.1, e1, e2]
      simp only [Bool.false_eq_true, if_false]
      rw [if_pos (by omega)]
      omega
    · have e2 := get_inj ps hps k (a - ant - 1) hk (by omega)
      rw [if_neg hc, e1, e2]
      cases universal
      · simp only [Bool.false_eq_true, if_false]
        rw [if_neg (by simp at hc; omega)]
        omega
      · simp only [if_true]; omega
  unfold cellRow
  exact and_congr hU hT

/-- Periods `2000, 2002, 2004`; the cell of cohort `2002` in `2004` compares `2004` with `2000`. -/
example : let ps : List ℤ := [2000, 2002, 2004]
    (cellRow true false 0 2 3 (recodeRow ps (⟨1, 2000, ((2002 : ℤ) : WithTop ℤ), 5⟩ : PRow ℚ))) ∧
    ¬ (cellRow true false 0 2 3 (recodeRow ps (⟨1, 2002, ((2002 : ℤ) : WithTop ℤ), 5⟩ : PRow ℚ))) := by
  have hps : ([2000, 2002, 2004] : List ℤ).Pairwise (· < ·) := by decide
  have hpos : ∀ p ∈ ([2000, 2002, 2004] : List ℤ), 0 < p := by decide
  constructor
  · have := (C224_cell (K := ℚ) [2000, 2002, 2004] hps hpos true false 0 1 2 (by decide) (by decide) (by decide) (by decide)
      ⟨1, 2000, ((2002 : ℤ) : WithTop ℤ), 5⟩ (by decide) (Or.inr (Or.inr ⟨2002, by decide, rfl⟩))).2
    exact this ⟨Or.inl rfl, Or.inr rfl⟩
  · intro h
    have := (C224_cell (K := ℚ) [2000, 2002, 2004] hps hpos true false 0 1 2 (by decide) (by decide) (by decide) (by decide)
      ⟨1, 2002, ((2002 : ℤ) : WithTop ℤ), 5⟩ (by decide) (Or.inr (Or.inr ⟨2002, by decide, rfl⟩))).1 h
    revert this
    simp

/-- **C224 (violated).**  A unit first treated between two observed periods, at a date `G` that is not larger than the number of periods,
is merged with the cohort first treated in the `G`-th observed period, which is later than `G`: it counts as a member of that cohort, and in
every cell evaluated in an observed period between the two dates it serves as a comparison unit although it is already treated. -/
theorem C224_between_violated (ps : List ℤ) (hps : ps.Pairwise (· < ·)) (hpos : ∀ p ∈ ps, 0 < p) (k : ℕ) (hk : k < ps.length)
    (hG : (k : ℤ) + 1 ∉ ps) :
    (k : ℤ) + 1 < ps[k] ∧
    mapIdx ps (((k : ℤ) + 1 : ℤ) : WithTop ℤ) = mapIdx ps ((ps[k] : ℤ) : WithTop ℤ) ∧
    ∀ (b : ℕ) (hb : b < ps.length), (k : ℤ) + 1 < ps[b] → ps[b] < ps[k] →
      ∀ g : ℤ, cellUnit true g ((b : ℤ) + 1) (mapIdx ps (((k : ℤ) + 1 : ℤ) : WithTop ℤ)) := by
  have e : mapIdx ps (((k : ℤ) + 1 : ℤ) : WithTop ℤ) = (((k : ℤ) + 1 : ℤ) : WithTop ℤ) := by
    show ((mapFin ps ((k : ℤ) + 1) : ℤ) : WithTop ℤ) = _
    unfold mapFin
    rw [if_neg hG]
  have e' : mapIdx ps ((ps[k] : ℤ) : WithTop ℤ) = (((k : ℤ) + 1 : ℤ) : WithTop ℤ) := by
    show ((mapFin ps ps[k] : ℤ) : WithTop ℤ) = _
    rw [mapFin_get ps hps k hk]
  refine ⟨?_, e.trans e'.symm, ?_⟩
  · have h1 := get_ge ps hps hpos k hk
    refine lt_of_le_of_ne h1 fun h => hG ?_
    rw [h]; exact List.getElem_mem hk
  · intro b hb _ h2 g
    rw [e]
    unfold cellUnit
    rw [if_pos rfl]
    have := (get_lt_iff ps hps b k hb hk).1 h2
    refine Or.inr (Or.inl ?_)
    rw [WithTop.coe_lt_coe]
    omega

/-- Periods `2, 4, 6`, a unit first treated at `3`: it is merged with the cohort first treated at `6`, and serves as a comparison unit in
period `4`. -/
example : mapIdx [2, 4, 6] ((3 : ℤ) : WithTop ℤ) = mapIdx [2, 4, 6] ((6 : ℤ) : WithTop ℤ) ∧
    cellUnit true 2 2 (mapIdx [2, 4, 6] ((3 : ℤ) : WithTop ℤ)) := by
  obtain ⟨-, h2, h3⟩ := C224_between_violated [2, 4, 6] (by decide) (by decide) 2 (by decide) (by decide)
  exact ⟨h2, h3 1 (by decide) (by decide) (by decide) 2⟩

end Verif.Cont
