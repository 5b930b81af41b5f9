import Verif.Triple.MultiProps
import Verif.Triple.Ex

/-!
# Triple differences with several periods: C53 (units used by a cell) and C80 (observation weights)
-/

set_option linter.unusedSectionVars false
set_option linter.unusedSimpArgs false

namespace Verif.Triple

variable {K : Type*} [Field K]

/-! ## C53 -/

/-- Spec: cohort `c` (`none` = infinite / missing) may be used by the cell for cohort `g`, period `t`, base `pret`:
cohort `g` itself, never treated, or, if not-yet-treated units are allowed, first treated after both periods. -/
def Usable (notyet : Bool) (g t pret : ℤ) (c : Option ℤ) : Prop :=
  c = some g ∨ c = none ∨ c = some 0 ∨ (notyet = true ∧ ∃ v, c = some v ∧ t < v ∧ pret < v)

lemma neverTreated_iff (c : Option ℤ) : neverTreated c = true ↔ c = none ∨ c = some 0 := by
  cases c <;> simp [neverTreated]

/-- **C53 (rows).** The rows of a cell are exactly the rows of the two periods whose cohort is usable. -/
theorem C53_cell_rows (notyet : Bool) (g t pret : ℤ) (data : List (Row K)) (r : Row K) :
    r ∈ cellData notyet g t pret data ↔
      r ∈ data ∧ Usable notyet g t pret r.g ∧ (r.time = t ∨ r.time = pret) := by
  unfold cellData Usable isControl
  rw [List.mem_filter]
  simp only [Bool.and_eq_true, Bool.or_eq_true, decide_eq_true_eq]
  refine and_congr_right fun _ => and_congr_left fun _ => ?_
  cases notyet with
  | false => simp only [Bool.false_eq_true, if_false, neverTreated_iff, false_and, or_false]
  | true =>
    simp only [if_true, Bool.and_eq_true, Bool.or_eq_true, decide_eq_true_eq, neverTreated_iff, true_and]
    cases hg : r.g with
    | none => simp [laterThan]
    | some v =>
      simp only [laterThan, decide_eq_true_eq, Option.some.injEq, reduceCtorEq, false_or, max_lt_iff,
        exists_eq_left']
      constructor
      · rintro (h | ⟨h | h, -⟩)
        · exact Or.inl h
        · exact Or.inr (Or.inl h)
        · exact Or.inr (Or.inr h)
      · by_cases hv : v = g
        · exact fun _ => Or.inl hv
        · rintro (h | h | h)
          · exact Or.inl h
          · exact Or.inr ⟨Or.inl h, by simpa using hv⟩
          · exact Or.inr ⟨Or.inr h, by simpa using hv⟩

/-- **C53 (no treated controls).** A comparison unit with a positive cohort is first treated after both periods. -/
theorem C53_no_treated_controls (notyet : Bool) (g t pret : ℤ) (data : List (Row K)) (r : Row K)
    (hr : r ∈ cellData notyet g t pret data) (v : ℤ) (hv : r.g = some v) (hpos : 0 < v) (hne : v ≠ g) :
    notyet = true ∧ t < v ∧ pret < v := by
  obtain ⟨_, hu, _⟩ := (C53_cell_rows notyet g t pret data r).1 hr
  rw [hv] at hu
  rcases hu with h | h | h | ⟨hn, w, hw, h⟩
  · exact absurd (Option.some.inj h) hne
  · cases h
  · have := Option.some.inj h; omega
  · cases hw; exact ⟨hn, h⟩

/-- Spec: at most one row per unit and period. -/
def OneRow (rows : List (Row K)) : Prop := rows.Pairwise fun a b => ¬ (a.id = b.id ∧ a.time = b.time)

lemma atTime_mem (s : ℤ) (rows : List (Row K)) (r : Row K) : r ∈ atTime s rows ↔ r ∈ rows ∧ r.time = s := by
  unfold atTime; rw [List.mem_insertionSort, List.mem_filter, decide_eq_true_eq]

lemma atTime_strict (s : ℤ) (rows : List (Row K)) (h : OneRow rows) :
    (atTime s rows).Pairwise fun a b => a.id < b.id := by
  have hp : (atTime s rows).Pairwise fun a b => a.id ≠ b.id := by
    have h1 : (rows.filter fun r => decide (r.time = s)).Pairwise fun a b => a.id ≠ b.id := by
      have h0 := List.Pairwise.filter (fun r : Row K => decide (r.time = s)) h
      refine h0.imp_of_mem fun {a b} ha hb hab he => hab ⟨he, ?_⟩
      rw [List.mem_filter, decide_eq_true_eq] at ha hb
      rw [ha.2, hb.2]
    exact (List.Perm.pairwise_iff (fun {a b} hab => hab.symm) (List.perm_insertionSort _ _)).2 h1
  have hs : (atTime s rows).Pairwise fun a b => a.id ≤ b.id :=
    List.pairwise_insertionSort _ _
  exact (hs.and hp).imp fun {a b} hab => lt_of_le_of_ne hab.1 hab.2

lemma zip_same {α : Type*} (f : α → ℕ) : ∀ (l m : List α), l.map f = m.map f → ∀ p ∈ l.zip m, f p.1 = f p.2
  | [], _, _, p, hp => by simp at hp
  | _ :: _, [], _, p, hp => by simp at hp
  | a :: l, b :: m, h, p, hp => by
    simp only [List.map_cons, List.cons.injEq] at h
    simp only [List.zip_cons_cons, List.mem_cons] at hp
    rcases hp with rfl | hp
    · exact h.1
    · exact zip_same f l m h.2 p hp

lemma zip_covers {α : Type*} (f : α → ℕ) : ∀ (l m : List α), l.map f = m.map f → (l.zip m).map Prod.fst = l
  | [], _, _ => by simp
  | a :: l, [], h => by simp at h
  | a :: l, b :: m, h => by
    simp only [List.map_cons, List.cons.injEq] at h
    simp [zip_covers f l m h.2]

lemma pairs_ids_eq (t pret : ℤ) (rows : List (Row K)) (h : OneRow rows) :
    ((atTime t rows).filter fun r => decide (r.id ∈ (atTime pret rows).map Row.id)).map Row.id =
    ((atTime pret rows).filter fun r => decide (r.id ∈ (atTime t rows).map Row.id)).map Row.id := by
  have s1 : (((atTime t rows).filter fun r => decide (r.id ∈ (atTime pret rows).map Row.id)).map Row.id).Pairwise (· < ·) :=
    List.pairwise_map.2 ((atTime_strict t rows h).filter _)
  have s2 : (((atTime pret rows).filter fun r => decide (r.id ∈ (atTime t rows).map Row.id)).map Row.id).Pairwise (· < ·) :=
    List.pairwise_map.2 ((atTime_strict pret rows h).filter _)
  refine List.Perm.eq_of_pairwise (le := (· < ·)) (fun a b _ _ hab hba => absurd (hab.trans hba) (lt_irrefl _)) s1 s2 ?_
  rw [List.perm_ext_iff_of_nodup (s1.imp fun {a b} h => h.ne) (s2.imp fun {a b} h => h.ne)]
  intro u
  simp only [List.mem_map, List.mem_filter, decide_eq_true_eq]
  constructor
  · rintro ⟨a, ⟨ha, b, hb, hab⟩, rfl⟩
    exact ⟨b, ⟨hb, a, ha, hab.symm⟩, hab⟩
  · rintro ⟨a, ⟨ha, b, hb, hab⟩, rfl⟩
    exact ⟨b, ⟨hb, a, ha, hab.symm⟩, hab⟩

/-- **C53 (pairing).** With one row per unit and period, the change of outcome handed to the estimator is, for every
unit seen in both periods and for no other, its own outcome in the later period minus its own outcome in the base period;
each unit enters once. -/
theorem C53_pairs (t pret : ℤ) (rows : List (Row K)) (h : OneRow rows) :
    (∀ p ∈ pairs t pret rows, p.1.id = p.2.id ∧ p.1 ∈ rows ∧ p.1.time = t ∧ p.2 ∈ rows ∧ p.2.time = pret) ∧
    (∀ a ∈ rows, ∀ b ∈ rows, a.id = b.id → a.time = t → b.time = pret →
      ∃ p ∈ pairs t pret rows, p.1 = a) ∧
    ((pairs t pret rows).map fun p => p.1.id).Nodup := by
  have he := pairs_ids_eq t pret rows h
  have hf : (pairs t pret rows).map Prod.fst =
      (atTime t rows).filter fun r => decide (r.id ∈ (atTime pret rows).map Row.id) := by
    unfold pairs; exact zip_covers Row.id _ _ he
  refine ⟨fun p hp => ?_, fun a ha b hb hid hat hbt => ?_, ?_⟩
  · refine ⟨zip_same Row.id _ _ he p (by unfold pairs at hp; exact hp), ?_⟩
    unfold pairs at hp
    have hp' : (p.1, p.2) ∈ _ := hp
    obtain ⟨h1, h2⟩ := List.of_mem_zip hp'
    rw [List.mem_filter, atTime_mem] at h1 h2
    exact ⟨h1.1.1, h1.1.2, h2.1.1, h2.1.2⟩
  · have hm : a ∈ (pairs t pret rows).map Prod.fst := by
      rw [hf, List.mem_filter, atTime_mem, decide_eq_true_eq]
      exact ⟨⟨ha, hat⟩, List.mem_map.2 ⟨b, (atTime_mem _ _ _).2 ⟨hb, hbt⟩, hid.symm⟩⟩
    obtain ⟨p, hp, rfl⟩ := List.mem_map.1 hm
    exact ⟨p, hp, rfl⟩
  · have : ((pairs t pret rows).map fun p => p.1.id) = ((pairs t pret rows).map Prod.fst).map Row.id := by
      rw [List.map_map]; rfl
    rw [this, hf]
    exact (List.pairwise_map.2 (((atTime_strict t rows h).filter _).imp fun {a b} h => h.ne))

lemma singleDDD_ids (est : Estimator K) (g t pret : ℤ) (rows : List (Row K)) (x : K × List K × List ℕ)
    (h : singleDDD est g t pret rows = some x) : x.2.2 = (pairs t pret rows).map fun p => p.1.id := by
  unfold singleDDD at h
  simp only at h
  split_ifs at h
  split at h
  · cases h
  · cases h; rfl

lemma pairs_fst_mem (t pret : ℤ) (rows : List (Row K)) (p : Row K × Row K) (hp : p ∈ pairs t pret rows) :
    p.1 ∈ rows ∧ p.1.time = t ∧ ∃ q ∈ rows, q.id = p.1.id ∧ q.time = pret := by
  unfold pairs at hp
  have hp' : (p.1, p.2) ∈ _ := hp
  obtain ⟨h1, _⟩ := List.of_mem_zip hp'
  rw [List.mem_filter, atTime_mem, decide_eq_true_eq, List.mem_map] at h1
  obtain ⟨⟨h1, h2⟩, q, hq, hqi⟩ := h1
  rw [atTime_mem] at hq
  exact ⟨h1, h2, q, hq.1, hqi, hq.2⟩

/-- **C53 (end to end).** Every unit that contributes influence values to a cell was observed in both periods, and its
cohort is the cell's cohort, never treated, or (not-yet-treated comparison) first treated after both periods. -/
theorem C53_units_used (inv : ∀ m, (Fin m → Fin m → K) → Fin m → Fin m → K) (est : Estimator K) (universal notyet : Bool)
    (data : List (Row K)) (g t : ℤ) (i : ℕ) (c : CellOut K) (ids : List ℕ) (f : List K)
    (h : processCell inv est universal notyet data g t i = some c) (hi : c.inf = some (ids, f)) :
    ∃ pret, pretOf universal (tlistOf data) g t i = some pret ∧ ∀ u ∈ ids, ∃ a ∈ data, ∃ b ∈ data,
      a.id = u ∧ b.id = u ∧ a.time = t ∧ b.time = pret ∧ Usable notyet g t pret a.g ∧ Usable notyet g t pret b.g := by
  have key : ∀ (pret : ℤ) (rows : List (Row K)), (∀ r ∈ rows, r ∈ cellData notyet g t pret data) →
      ∀ x, singleDDD est g t pret rows = some x → ∀ u ∈ x.2.2, ∃ a ∈ data, ∃ b ∈ data,
      a.id = u ∧ b.id = u ∧ a.time = t ∧ b.time = pret ∧ Usable notyet g t pret a.g ∧ Usable notyet g t pret b.g := by
    intro pret rows hrows x hx u hu
    rw [singleDDD_ids _ _ _ _ _ _ hx, List.mem_map] at hu
    obtain ⟨p, hp, rfl⟩ := hu
    obtain ⟨h1, h2, q, h3, h4, h5⟩ := pairs_fst_mem _ _ _ _ hp
    have ha := (C53_cell_rows notyet g t pret data p.1).1 (hrows _ h1)
    have hb := (C53_cell_rows notyet g t pret data q).1 (hrows _ h3)
    exact ⟨p.1, ha.1, q, hb.1, rfl, h4, h2, h5, ha.2.1, hb.2.1⟩
  unfold processCell at h
  split at h
  · cases h
  · rename_i pret hp
    refine ⟨pret, hp, ?_⟩
    split_ifs at h with hu
    · cases h; cases hi
    · simp only at h
      split at h
      · cases h
      · rw [Option.map_eq_some_iff] at h
        obtain ⟨x, hx, rfl⟩ := h
        simp only [Option.some.injEq, Prod.mk.injEq] at hi
        rw [← hi.1]
        exact key pret _ (fun r hr => hr) x hx
      · rw [Option.map_eq_some_iff] at h
        obtain ⟨x, hx, rfl⟩ := h
        unfold multiControls at hx
        simp only at hx
        split_ifs at hx
        cases hx
        simp only [Option.some.injEq, Prod.mk.injEq] at hi
        rw [← hi.1]
        intro u hu
        rw [List.mem_insertionSort, List.mem_dedup, List.mem_flatMap] at hu
        obtain ⟨y, hy, hu⟩ := hu
        rw [List.mem_filterMap] at hy
        obtain ⟨ctrl, _, hy⟩ := hy
        exact key pret _ (fun r hr => (List.mem_filter.1 hr).1) y hy u hu

example : (processCell exInv exEst false true exData 3 3 1).isSome = true ∧
    (cellData true 3 2 1 exData).map Row.id = [21, 21, 22, 22, 23, 23, 31, 31, 32, 32, 33, 33] := by decide +kernel

instance (rows : List (Row K)) : Decidable (OneRow rows) := by unfold OneRow; infer_instance

example : OneRow exData ∧ (pairs 3 2 exData).length = 9 := by decide +kernel

/-! ## C80 -/

/-- Subgroups, outcomes of period 3 and of period 2 of the six units of `exData'`. -/
def wSg : Fin 6 → ℕ := ![4, 4, 3, 2, 2, 1]
def wY1 : Fin 6 → ℚ := ![9, 6, 2, 2, 1, 2]
def wY0 : Fin 6 → ℚ := ![2, 2, 1, 1, 2, 2]
/-- Observation weights by unit. -/
def wObs : ℕ → ℚ := fun u => if u = 21 then 3 else 1
def wVec : Fin 6 → ℚ := ![3, 1, 1, 1, 1, 1]

/-- The estimates a run returns. -/
def attsOf (r : Option (MpResult ℚ)) : Option (List ℚ) := r.map fun r => r.entries.map CellOut.att

/-- **C80 (violated).** With more than two periods the observation weights never reach the estimator: any two weight
columns give the same result, and in a concrete data set with unequal weights the returned post-treatment estimate is the
unweighted triple difference and not the weighted one. -/
theorem C80_weights_ignored_violated :
    (∀ (inv : ∀ m, (Fin m → Fin m → ℚ) → Fin m → Fin m → ℚ) (est : Estimator ℚ) (universal notyet : Bool)
      (data : List (Row ℚ)) (w w' : ℕ → ℚ),
      dddEntryMulti inv est universal notyet data w = dddEntryMulti inv est universal notyet data w') ∧
    ((attsOf (dddEntryMulti exInv exEst false false exData' wObs)).bind fun l => l[1]?) =
      some (ddd (fun _ => 1) wSg wY1 wY0) ∧
    ddd (fun _ => 1) wSg wY1 wY0 ≠ ddd wVec wSg wY1 wY0 := by
  refine ⟨fun _ _ _ _ _ _ _ => rfl, ?_, ?_⟩ <;> decide +kernel

end Verif.Triple
