import Verif.Agg.Lemmas
import Mathlib.Algebra.Field.Rat
import Mathlib.Algebra.Order.Ring.Rat
import Mathlib.Data.Fin.VecNotation
import Mathlib.Tactic.NormNum
import Mathlib.Order.Interval.Finset.Defs
import Mathlib.Data.Int.Interval

set_option linter.unusedSectionVars false

/-! # C31–C35, C37: aggregation of group-time effects -/

namespace Verif.Agg

variable {ι K : Type*}

/-! ## A running example -/

/-- Six units: cohorts 2004, 2004, 2006, 2009 and two never treated. -/
def exG : Fin 6 → WithTop ℤ := ![(2004 : ℤ), (2004 : ℤ), (2006 : ℤ), (2009 : ℤ), ⊤, ⊤]
def exW : Fin 6 → ℚ := ![1, 1, 1, 1, 1, 1]

/-- Estimates for cohorts 2004, 2006 and 2009 in the unevenly spaced periods 2004, 2006, 2009. -/
def exCells : List (Cell (Fin 6) ℚ) :=
  [⟨2004, 2004, 1, ![1, -1, 0, 0, 0, 0]⟩, ⟨2004, 2006, 2, ![0, 0, 1, -1, 0, 0]⟩, ⟨2004, 2009, 9, fun _ => 0⟩,
   ⟨2006, 2004, 0, fun _ => 0⟩, ⟨2006, 2006, 10, fun _ => 0⟩, ⟨2006, 2009, 12, fun _ => 0⟩,
   ⟨2009, 2004, 0, fun _ => 0⟩, ⟨2009, 2006, 5, fun _ => 0⟩, ⟨2009, 2009, 20, fun _ => 0⟩]

/-! ## C33 -/

/-- **C33.** On the cohorts and periods occurring in the cells the recoding is strictly increasing, starts at 1,
is inverted by the decoder, and the vectorised recoder agrees with the scalar one on every value (both give NaN exactly
for values that do not occur); the never-treated code `inf` is never matched. -/
theorem C33_recoding_order_isomorphism (cs : List (Cell ι K)) :
    (∀ x, (∃ c ∈ cs, x = c.g ∨ x = c.t) → ∃ n, orig2t (lookup cs) x = some n ∧ 1 ≤ n ∧ t2orig (lookup cs) n = x) ∧
    (∀ x, (¬ ∃ c ∈ cs, x = c.g ∨ x = c.t) → orig2t (lookup cs) x = none) ∧
    (∀ x y n m, orig2t (lookup cs) x = some n → orig2t (lookup cs) y = some m → (n < m ↔ x < y)) ∧
    (∀ x : ℤ, orig2tArr (lookup cs) x = orig2t (lookup cs) x) ∧ orig2tArr (lookup cs) ⊤ = none := by
  have hs := lookup_pairwise cs
  have hm : ∀ x, x ∈ lookup cs ↔ ∃ c ∈ cs, x = c.g ∨ x = c.t := by
    intro x
    unfold lookup
    simp only [mem_uniqueSorted, List.mem_append, List.mem_map]
    constructor
    · rintro (⟨c, hc, rfl⟩ | ⟨c, hc, rfl⟩)
      · exact ⟨c, hc, .inr rfl⟩
      · exact ⟨c, hc, .inl rfl⟩
    · rintro ⟨c, hc, rfl | rfl⟩
      · exact .inr ⟨c, hc, rfl⟩
      · exact .inl ⟨c, hc, rfl⟩
  have hsome : ∀ x, x ∈ lookup cs → orig2t (lookup cs) x = some (code (lookup cs) x) := by
    intro x hx
    obtain ⟨i, hi⟩ := List.mem_iff_getElem?.1 hx
    rw [orig2t_some hs hi, code_getElem hs hi]
  have hmem : ∀ x n, orig2t (lookup cs) x = some n → x ∈ lookup cs := by
    intro x n h
    by_contra hc
    rw [orig2t_none hc] at h; simp at h
  refine ⟨fun x hx => ⟨_, hsome x ((hm x).2 hx), code_pos hs ((hm x).2 hx), t2orig_code hs ((hm x).2 hx)⟩,
    fun x hx => orig2t_none fun h => hx ((hm x).1 h), ?_, orig2tArr_eq hs, orig2tArr_top _⟩
  intro x y n m hx hy
  have h1 := hmem x n hx
  have h2 := hmem y m hy
  rw [hsome x h1] at hx
  rw [hsome y h2] at hy
  rw [← Option.some.inj hx, ← Option.some.inj hy, code_lt hs h1 h2]

example : lookup exCells = [2004, 2006, 2009] ∧ orig2t (lookup exCells) 2009 = some 3 := by decide +kernel

/-! ## Masks -/

section
variable [Fintype ι] [Field K]

theorem isPost_eq (G : ι → WithTop ℤ) (w : ι → K) (maxE : Option ℤ) (cs : List (Cell ι K)) (c : Cell ι K)
    (hc : c ∈ cs) : isPost maxE (mk G w cs c) =
      (post c && (match maxE with | none => true | some m => decide ((steps cs c.g c.t : ℤ) ≤ m))) := by
  have hs := lookup_pairwise cs
  have hg := mem_lookup_g hc
  have ht := mem_lookup_t hc
  unfold isPost post mk
  simp only
  by_cases h : c.g ≤ c.t
  · rw [decide_eq_true ((code_le hs hg ht).2 h), decide_eq_true h]
    cases maxE with
    | none => rfl
    | some m =>
      simp only [withinMax, Bool.true_and]
      rw [decide_eq_decide, code_sub hs hg ht h, steps_eq]
      push_cast; omega
  · rw [decide_eq_false (fun hh => h ((code_le hs hg ht).1 hh)), decide_eq_false h]; rfl

/-! ## C32, C34: which cells are combined -/

/-- **C32, simple.** The overall effect is the cohort-share weighted mean over exactly the cells with `g ≤ t`. -/
theorem C32_simple [DecidableEq K] (G : ι → WithTop ℤ) (w : ι → K) (cs : List (Cell ι K))
    (hne : totalShare G w cs post ≠ 0) :
    (simpleAgg G w none cs).1 = some (weightedMean G w cs post) := by
  unfold simpleAgg
  simp only
  rw [recode_filter G w cs _ post (fun c hc => by rw [isPost_eq G w none cs c hc]; simp), combine_eq G w cs post hne]

example : totalShare exG exW exCells post ≠ 0 ∧ (simpleAgg exG exW none exCells).1 = some (66 / 9) := by
  decide +kernel

/-- **C34, exact rule of simple aggregation.** `max_e = m` admits the post-treatment cells with at most `m` *observed*
cohort or period values after the cohort's start up to the period. -/
theorem C34_simple_counts_steps [DecidableEq K] (G : ι → WithTop ℤ) (w : ι → K) (m : ℤ) (cs : List (Cell ι K))
    (hne : totalShare G w cs (fun c => post c && decide ((steps cs c.g c.t : ℤ) ≤ m)) ≠ 0) :
    (simpleAgg G w (some m) cs).1 =
      some (weightedMean G w cs fun c => post c && decide ((steps cs c.g c.t : ℤ) ≤ m)) := by
  unfold simpleAgg
  simp only
  rw [recode_filter G w cs _ (fun c => post c && decide ((steps cs c.g c.t : ℤ) ≤ m))
    (fun c hc => by rw [isPost_eq G w (some m) cs c hc]), combine_eq G w cs _ hne]

/-- Distinct values strictly between: consecutive integers. -/
theorem steps_consecutive (cs : List (Cell ι K)) (g t : ℤ) (hgt : g ≤ t)
    (hc : ∀ x, g < x → x ≤ t → ∃ c ∈ cs, x = c.g ∨ x = c.t) : (steps cs g t : ℤ) = t - g := by
  unfold steps
  have : ((cs.map Cell.t ++ cs.map Cell.g).dedup.filter fun x => decide (g < x ∧ x ≤ t)).toFinset = Finset.Ioc g t := by
    ext x
    simp only [List.mem_toFinset, List.mem_filter, List.mem_dedup, List.mem_append, List.mem_map, decide_eq_true_eq,
      Finset.mem_Ioc, and_iff_right_iff_imp]
    rintro ⟨h1, h2⟩
    obtain ⟨c, hc, h | h⟩ := hc x h1 h2
    · exact .inr ⟨c, hc, h.symm⟩
    · exact .inl ⟨c, hc, h.symm⟩
  rw [← List.toFinset_card_of_nodup ((List.nodup_dedup _).filter _), this, Int.card_Ioc]
  omega

/-- **C34, positive part.** When the observed cohorts and periods are consecutive integers, `max_e = m` means at most
`m` periods after treatment in simple aggregation. -/
theorem C34_simple_consecutive [DecidableEq K] (G : ι → WithTop ℤ) (w : ι → K) (m : ℤ) (cs : List (Cell ι K))
    (hc : ∀ c ∈ cs, ∀ x, c.g < x → x ≤ c.t → ∃ c' ∈ cs, x = c'.g ∨ x = c'.t)
    (hne : totalShare G w cs (fun c => post c && decide (c.t - c.g ≤ m)) ≠ 0) :
    (simpleAgg G w (some m) cs).1 = some (weightedMean G w cs fun c => post c && decide (c.t - c.g ≤ m)) := by
  have e : cs.filter (fun c => post c && decide ((steps cs c.g c.t : ℤ) ≤ m)) =
      cs.filter (fun c => post c && decide (c.t - c.g ≤ m)) := by
    apply List.filter_congr
    intro c hc'
    by_cases h : c.g ≤ c.t
    · rw [steps_consecutive cs c.g c.t h (hc c hc')]
    · simp [post, h]
  have h := C34_simple_counts_steps G w m cs (by unfold totalShare; rw [e]; exact hne)
  rw [h]
  unfold weightedMean totalShare
  rw [e]

/-- Yearly cells. -/
def exYearly : List (Cell (Fin 6) ℚ) :=
  [⟨2004, 2004, 1, fun _ => 0⟩, ⟨2004, 2005, 2, fun _ => 0⟩, ⟨2004, 2006, 7, fun _ => 0⟩,
   ⟨2006, 2005, 9, fun _ => 0⟩, ⟨2006, 2006, 4, fun _ => 0⟩]

example : (∀ c ∈ exYearly, ∀ x, c.g < x → x ≤ c.t → ∃ c' ∈ exYearly, x = c'.g ∨ x = c'.t) ∧
    totalShare exG exW exYearly (fun c => post c && decide (c.t - c.g ≤ 1)) ≠ 0 ∧
    (simpleAgg exG exW (some 1) exYearly).1 = some 2 := by
  refine ⟨?_, by decide +kernel, by decide +kernel⟩
  intro c hc x h1 h2
  simp only [exYearly, List.mem_cons, List.not_mem_nil, or_false] at hc
  have : x = 2005 ∨ x = 2006 := by
    rcases hc with rfl | rfl | rfl | rfl | rfl <;> simp at h1 h2 <;> omega
  rcases this with rfl | rfl
  · exact ⟨⟨2004, 2005, 2, fun _ => 0⟩, by simp [exYearly], .inr rfl⟩
  · exact ⟨⟨2004, 2006, 7, fun _ => 0⟩, by simp [exYearly], .inr rfl⟩

/-- **C34 fails as stated.** With periods 2004, 2006, 2009 and `max_e = 2`, simple aggregation includes the effect of
cohort 2004 five years after treatment; the documented restriction would give another number. -/
theorem C34_simple_violated :
    (simpleAgg exG exW (some 2) exCells).1 = some (weightedMean exG exW exCells post) ∧
    (simpleAgg exG exW (some 2) exCells).1 ≠
      some (weightedMean exG exW exCells fun c => post c && decide (c.t - c.g ≤ 2)) := by decide +kernel

/-! ### Group aggregation -/

theorem groupEff_eq (maxE : Option ℤ) (G : ι → WithTop ℤ) (w : ι → K) (cs : List (Cell ι K)) (g : ℤ)
    (hg : g ∈ cs.map Cell.g) :
    (recode G w cs).filter (groupMask maxE (code (lookup cs) g)) =
      (cs.filter fun c => ofCohort g c &&
        (match maxE with | none => true | some m => decide ((steps cs g c.t : ℤ) ≤ m))).map (mk G w cs) := by
  obtain ⟨c0, hc0, rfl⟩ := List.mem_map.1 hg
  have hs := lookup_pairwise cs
  apply recode_filter
  intro c hc
  unfold groupMask ofCohort mk
  simp only
  have hg0 := mem_lookup_g hc0
  have ht := mem_lookup_t hc
  have hg := mem_lookup_g hc
  by_cases h1 : c.g = c0.g
  · by_cases h2 : c0.g ≤ c.t
    · rw [decide_eq_true ((code_inj hs hg hg0).2 h1), decide_eq_true ((code_le hs hg0 ht).2 h2),
        decide_eq_true ⟨h1, h2⟩]
      cases maxE with
      | none => rfl
      | some m =>
        simp only [withinMax, Bool.true_and]
        rw [decide_eq_decide, code_sub hs hg0 ht h2, steps_eq]
        push_cast; omega
    · rw [decide_eq_false (fun hh => h2 ((code_le hs hg0 ht).1 hh)), show decide (c.g = c0.g ∧ c0.g ≤ c.t) = false from decide_eq_false (fun hh => h2 hh.2)]
      simp
  · rw [decide_eq_false (fun hh => h1 ((code_inj hs hg hg0).1 hh)), show decide (c.g = c0.g ∧ c0.g ≤ c.t) = false from decide_eq_false (fun hh => h1 hh.1)]
    simp

/-- **C32, group.** One effect is reported per cohort, in increasing order; it is the plain mean of that cohort's cells
with `t ≥ g`, and NaN exactly when there is none. -/
theorem C32_group [DecidableEq K] (G : ι → WithTop ℤ) (w : ι → K) (cs : List (Cell ι K)) :
    (((groupAgg G w none cs).effects.map Eff.label).Pairwise (· < ·)) ∧
    (∀ g, g ∈ (groupAgg G w none cs).effects.map Eff.label ↔ ∃ c ∈ cs, c.g = g) ∧
    ∀ e ∈ (groupAgg G w none cs).effects,
      ((¬ ∃ c ∈ cs, c.g = e.label ∧ e.label ≤ c.t) → e.att = none) ∧
      ((∃ c ∈ cs, c.g = e.label ∧ e.label ≤ c.t) →
        e.att = some (plainMean ((cs.filter (ofCohort e.label)).map Cell.att)) ∧
        ∀ i, e.psi i = plainMean ((cs.filter (ofCohort e.label)).map fun c => c.psi i)) := by
  have hl : (groupAgg G w none cs).effects.map Eff.label = uniqueSorted (cs.map Cell.g) := by
    unfold groupAgg
    simp only [List.map_map]
    conv_rhs => rw [← List.map_id (uniqueSorted (cs.map Cell.g))]
    apply List.map_congr_left
    intro g _
    simp only [Function.comp, groupEff]
    split_ifs <;> rfl
  refine ⟨by rw [hl]; exact uniqueSorted_pairwise _, fun g => by rw [hl]; simp, ?_⟩
  intro e he
  unfold groupAgg at he
  simp only [List.mem_map] at he
  obtain ⟨g, hg, rfl⟩ := he
  rw [mem_uniqueSorted] at hg
  have hk := groupEff_eq none G w cs g hg
  simp only [Bool.and_true] at hk
  have hlab : (groupEff none (lookup cs) (recode G w cs) g).label = g := by
    unfold groupEff; simp only; split_ifs <;> rfl
  rw [hlab]
  unfold groupEff
  simp only
  rw [hk]
  constructor
  · intro hno
    have : cs.filter (fun c => ofCohort g c) = [] := by
      rw [List.filter_eq_nil_iff]
      intro c hc hp
      exact hno ⟨c, hc, by simpa [ofCohort] using hp⟩
    rw [this]; simp
  · rintro ⟨c, hc, h⟩
    have hmem : c ∈ cs.filter (fun c => ofCohort g c) := List.mem_filter.2 ⟨hc, by simpa [ofCohort] using h⟩
    have hne : ((cs.filter fun c => ofCohort g c).map (mk G w cs)).isEmpty = false := by
      cases hh : cs.filter (fun c => ofCohort g c) with
      | nil => rw [hh] at hmem; simp at hmem
      | cons a l => rfl
    rw [hne]
    simp only [Bool.false_eq_true, if_false]
    have e0 : (cs.filter fun c => ofCohort g c) = cs.filter (ofCohort g) := rfl
    refine ⟨?_, fun i => ?_⟩
    · unfold plainMean
      rw [e0, List.map_map, List.length_map, List.length_map]; rfl
    · unfold plainMean
      rw [sum_mul_list, e0, List.map_map, List.length_map, List.length_map, one_div, div_eq_mul_inv]; rfl

example : (groupAgg exG exW none exCells).effects.map (fun e => (e.label, e.att)) =
    [(2004, some 4), (2006, some 11), (2009, some 20)] := by decide +kernel

/-- **C34 fails as stated, group aggregation.** With `max_e = 2` the cohort 2004 effect still averages the estimate five
years after treatment. -/
theorem C34_group_violated :
    ((groupAgg exG exW (some 2) exCells).effects.map fun e => (e.label, e.att)).head? = some (2004, some 4) ∧
    plainMean ((exCells.filter fun c => ofCohort 2004 c && decide (c.t - c.g ≤ 2)).map Cell.att) ≠ 4 := by
  decide +kernel

/-! ### Dynamic aggregation -/

theorem sharedEff_mk [DecidableEq K] (G : ι → WithTop ℤ) (w : ι → K) (cs : List (Cell ι K)) (e : ℤ)
    (p : Cell ι K → Bool) (hne : totalShare G w cs p ≠ 0) :
    (sharedEff (lookup cs) G w e ((cs.filter p).map (mk G w cs))).att = some (weightedMean G w cs p) := by
  unfold sharedEff
  split_ifs with h
  · exfalso
    apply hne
    unfold totalShare
    rw [List.isEmpty_iff, List.map_eq_nil_iff] at h
    rw [h]; rfl
  · exact combine_eq G w cs p hne

theorem sharedEff_label [DecidableEq K] (lk : List ℤ) (G : ι → WithTop ℤ) (w : ι → K) (e : ℤ)
    (kept : List (RCell ι K)) : (sharedEff lk G w e kept).label = e := by
  unfold sharedEff; split_ifs <;> rfl

theorem dynamic_labels [DecidableEq K] (G : ι → WithTop ℤ) (w : ι → K) (b minE maxE : Option ℤ)
    (cs : List (Cell ι K)) : (dynamicAgg G w b minE maxE cs).effects.map Eff.label = eventTimes b minE maxE cs := by
  unfold dynamicAgg
  simp only [List.map_map]
  conv_rhs => rw [← List.map_id (eventTimes b minE maxE cs)]
  apply List.map_congr_left
  intro e _
  simp only [Function.comp, sharedEff_label, id]

/-- `lo ≤ e ≤ hi` with optional (infinite) bounds. -/
def inRange (lo hi : Option ℤ) (e : ℤ) : Prop := (∀ m, lo = some m → m ≤ e) ∧ ∀ m, hi = some m → e ≤ m

theorem rangeFilter (minE maxE : Option ℤ) (e : ℤ) :
    (aboveMin minE e && belowMax maxE e) = true ↔ inRange minE maxE e := by
  unfold inRange aboveMin belowMax
  cases minE <;> cases maxE <;> simp

/-- **C32/C34, dynamic.** Without balancing, the event times reported are exactly the differences `t - g` (in original
time units) of the cells that lie between `min_e` and `max_e`, in increasing order, and the effect at `e` is the
cohort-share weighted mean over exactly the cells with `t - g = e`. -/
theorem C32_dynamic [DecidableEq K] (G : ι → WithTop ℤ) (w : ι → K) (minE maxE : Option ℤ) (cs : List (Cell ι K)) :
    (((dynamicAgg G w none minE maxE cs).effects.map Eff.label).Pairwise (· < ·)) ∧
    (∀ e, e ∈ (dynamicAgg G w none minE maxE cs).effects.map Eff.label ↔
      (∃ c ∈ cs, c.t - c.g = e) ∧ inRange minE maxE e) ∧
    ∀ x ∈ (dynamicAgg G w none minE maxE cs).effects, totalShare G w cs (atEvent x.label) ≠ 0 →
      x.att = some (weightedMean G w cs (atEvent x.label)) := by
  refine ⟨?_, ?_, ?_⟩
  · rw [dynamic_labels]
    unfold eventTimes
    exact ((uniqueSorted_pairwise _).filter _).filter _
  · intro e
    rw [dynamic_labels]
    unfold eventTimes
    simp only [List.mem_filter, mem_uniqueSorted, rangeFilter, List.mem_map, includeBal, balFilter, and_true]
  · intro x hx hne
    unfold dynamicAgg at hx
    simp only [List.mem_map] at hx
    obtain ⟨e, _, rfl⟩ := hx
    rw [sharedEff_label] at hne ⊢
    rw [recode_filter G w cs _ (atEvent e) (fun c _ => Bool.and_true _)]
    exact sharedEff_mk G w cs e _ hne

example : (dynamicAgg exG exW none (some (-2)) (some 3) exCells).effects.map (fun e => (e.label, e.att)) =
    [(-2, some 0), (0, some 8), (2, some 2), (3, some 12)] ∧
    totalShare exG exW exCells (atEvent 0) ≠ 0 := by decide +kernel

/-! ### Calendar aggregation -/

theorem foldr_min_mem : ∀ (l : List ℕ) (m : ℕ), l.min? = some m → m ∈ l ∧ ∀ x ∈ l, m ≤ x := by
  intro l m h
  exact List.min?_eq_some_iff.1 h

/-- **C32, calendar.** The periods reported are exactly the periods of cells in which some cohort of the table is already
treated, in increasing order; the effect of period `t` is the cohort-share weighted mean over exactly the cells in `t`
with `g ≤ t`, and NaN when there is none. -/
theorem C32_calendar [DecidableEq K] (G : ι → WithTop ℤ) (w : ι → K) (cs : List (Cell ι K)) :
    (((calendarAgg G w cs).effects.map Eff.label).Pairwise (· < ·)) ∧
    (∀ t, t ∈ (calendarAgg G w cs).effects.map Eff.label ↔ (∃ c ∈ cs, c.t = t) ∧ ∃ c ∈ cs, c.g ≤ t) ∧
    ∀ x ∈ (calendarAgg G w cs).effects,
      ((¬ ∃ c ∈ cs, c.t = x.label ∧ c.g ≤ x.label) → x.att = none) ∧
      (totalShare G w cs (atPeriod x.label) ≠ 0 → x.att = some (weightedMean G w cs (atPeriod x.label))) := by
  have hs := lookup_pairwise cs
  set minG := (((recode G w cs).map RCell.rg).min?).getD 0 with hminG
  set calT := ((uniqueSorted ((recode G w cs).map fun c => (c.rt : ℤ))).map Int.toNat).filter
    (fun t => decide (minG ≤ t)) with hcalT
  have hmemT : ∀ n, n ∈ calT ↔ (∃ c ∈ cs, code (lookup cs) c.t = n) ∧ minG ≤ n := by
    intro n
    rw [hcalT]
    simp only [List.mem_filter, List.mem_map, mem_uniqueSorted, decide_eq_true_eq, recode_eq]
    constructor
    · rintro ⟨⟨z, ⟨r, ⟨c, hc, rfl⟩, rfl⟩, rfl⟩, h⟩
      exact ⟨⟨c, hc, by simp [mk]⟩, h⟩
    · rintro ⟨⟨c, hc, rfl⟩, h⟩
      exact ⟨⟨_, ⟨_, ⟨c, hc, rfl⟩, rfl⟩, by simp [mk]⟩, h⟩
  have hmin : ∀ t, t ∈ lookup cs → cs ≠ [] → (minG ≤ code (lookup cs) t ↔ ∃ c ∈ cs, c.g ≤ t) := by
    intro t ht hne
    rw [hminG, recode_eq, List.map_map]
    cases hm : (cs.map (RCell.rg ∘ mk G w cs)).min? with
    | none => rw [List.min?_eq_none_iff, List.map_eq_nil_iff] at hm; exact absurd hm hne
    | some m =>
      obtain ⟨h1, h2⟩ := foldr_min_mem _ _ hm
      simp only [Option.getD_some]
      obtain ⟨c, hc, rfl⟩ := List.mem_map.1 h1
      constructor
      · intro h; exact ⟨c, hc, (code_le hs (mem_lookup_g hc) ht).1 h⟩
      · rintro ⟨c', hc', h⟩
        exact (h2 _ (List.mem_map.2 ⟨c', hc', rfl⟩)).trans ((code_le hs (mem_lookup_g hc') ht).2 h)
  have hdec : ∀ n ∈ calT, ∃ c ∈ cs, t2orig (lookup cs) n = c.t ∧ n = code (lookup cs) c.t := by
    intro n hn
    obtain ⟨⟨c, hc, rfl⟩, _⟩ := (hmemT n).1 hn
    exact ⟨c, hc, t2orig_code hs (mem_lookup_t hc), rfl⟩
  have hlab : (calendarAgg G w cs).effects.map Eff.label = calT.map (t2orig (lookup cs)) := by
    unfold calendarAgg
    simp only [List.map_map]
    apply List.map_congr_left
    intro t _
    simp only [Function.comp, sharedEff_label]
  refine ⟨?_, ?_, ?_⟩
  · rw [hlab, List.pairwise_map]
    have hp : calT.Pairwise (· < ·) := by
      rw [hcalT]
      apply List.Pairwise.filter
      rw [List.pairwise_map]
      refine (uniqueSorted_pairwise _).imp_of_mem ?_
      intro a b ha hb hab
      rw [mem_uniqueSorted, List.mem_map] at ha hb
      obtain ⟨_, _, rfl⟩ := ha
      obtain ⟨_, _, rfl⟩ := hb
      simpa using hab
    refine hp.imp_of_mem ?_
    intro a b ha hb hab
    obtain ⟨c, hc, h1, rfl⟩ := hdec a ha
    obtain ⟨c', hc', h2, rfl⟩ := hdec b hb
    rw [h1, h2]
    exact (code_lt hs (mem_lookup_t hc) (mem_lookup_t hc')).1 hab
  · intro t
    rw [hlab, List.mem_map]
    constructor
    · rintro ⟨n, hn, rfl⟩
      obtain ⟨c, hc, h1, rfl⟩ := hdec n hn
      rw [h1]
      exact ⟨⟨c, hc, rfl⟩, (hmin _ (mem_lookup_t hc) (List.ne_nil_of_mem hc)).1 ((hmemT _).1 hn).2⟩
    · rintro ⟨⟨c, hc, rfl⟩, h⟩
      refine ⟨code (lookup cs) c.t, (hmemT _).2 ⟨⟨c, hc, rfl⟩, ?_⟩, t2orig_code hs (mem_lookup_t hc)⟩
      exact (hmin _ (mem_lookup_t hc) (List.ne_nil_of_mem hc)).2 h
  · intro x hx
    unfold calendarAgg at hx
    simp only [← hminG, ← hcalT] at hx
    obtain ⟨n, hn, rfl⟩ := List.mem_map.1 hx
    obtain ⟨c, hc, h1, rfl⟩ := hdec n hn
    rw [sharedEff_label, h1]
    have hfil : (recode G w cs).filter (fun r => decide (r.rt = code (lookup cs) c.t) &&
        decide (r.rg ≤ code (lookup cs) c.t)) = (cs.filter (atPeriod c.t)).map (mk G w cs) := by
      apply recode_filter
      intro c' hc'
      unfold mk atPeriod
      simp only [code_inj hs (mem_lookup_t hc') (mem_lookup_t hc), code_le hs (mem_lookup_g hc') (mem_lookup_t hc),
        Bool.decide_and]
    rw [hfil]
    constructor
    · intro hno
      have : cs.filter (atPeriod c.t) = [] := by
        rw [List.filter_eq_nil_iff]
        intro c' hc' hp
        exact hno ⟨c', hc', by simpa [atPeriod] using hp⟩
      rw [this]; rfl
    · intro hne; exact sharedEff_mk G w cs _ _ hne

example : (calendarAgg exG exW exCells).effects.map (fun e => (e.label, e.att)) =
    [(2004, some 1), (2006, some (14/3)), (2009, some (50/4))] ∧
    totalShare exG exW exCells (atPeriod 2009) ≠ 0 := by decide +kernel

end

end Verif.Agg
