import Verif.Agg.Props
import Mathlib.Tactic.Linarith
import Mathlib.Algebra.Order.BigOperators.Group.List
import Mathlib.Algebra.Order.BigOperators.Group.Finset

set_option linter.unusedSectionVars false

/-! # C31, C35–C38: weights, composition, influence functions -/

namespace Verif.Agg

variable {ι K : Type*}

/-! ## Weighted averages -/

section
variable [Fintype ι] [Field K] [LinearOrder K] [IsStrictOrderedRing K]

/-- A weighted average lies between any bounds of its arguments. -/
theorem IsWeightedAverage.bounds {a : K} {l : List K} (h : IsWeightedAverage a l) {lo hi : K}
    (hl : ∀ x ∈ l, lo ≤ x ∧ x ≤ hi) : lo ≤ a ∧ a ≤ hi := by
  obtain ⟨ws, hlen, hn, hs, rfl⟩ := h
  have key : ∀ (ws l : List K), ws.length = l.length → (∀ x ∈ ws, 0 ≤ x) → (∀ x ∈ l, lo ≤ x ∧ x ≤ hi) →
      lo * ws.sum ≤ (List.zipWith (· * ·) ws l).sum ∧ (List.zipWith (· * ·) ws l).sum ≤ hi * ws.sum := by
    intro ws
    induction ws with
    | nil => intro l _ _ _; simp
    | cons w ws ih =>
      intro l hlen hn hl
      cases l with
      | nil => simp at hlen
      | cons x l =>
        obtain ⟨h1, h2⟩ := ih l (by simpa using hlen) (fun y hy => hn y (List.mem_cons_of_mem _ hy))
          (fun y hy => hl y (List.mem_cons_of_mem _ hy))
        have hw := hn w (List.mem_cons_self ..)
        obtain ⟨hx1, hx2⟩ := hl x (List.mem_cons_self ..)
        simp only [List.sum_cons, List.zipWith_cons_cons, mul_add]
        constructor
        · have := mul_le_mul_of_nonneg_right hx1 hw
          linarith [mul_comm x w]
        · have := mul_le_mul_of_nonneg_right hx2 hw
          linarith [mul_comm x w]
  have := key ws l hlen hn hl
  rw [hs, mul_one, mul_one] at this
  exact this

/-- It equals the common value of equal arguments. -/
theorem IsWeightedAverage.const {a : K} {l : List K} (h : IsWeightedAverage a l) {v : K} (hl : ∀ x ∈ l, x = v) :
    a = v := by
  have := h.bounds (lo := v) (hi := v) fun x hx => by rw [hl x hx]; exact ⟨le_rfl, le_rfl⟩
  exact le_antisymm this.2 this.1

theorem weighted_of_list {α : Type*} (l : List α) (s f : α → K) (hs : ∀ c ∈ l, 0 ≤ s c) (hpos : 0 < (l.map s).sum) :
    IsWeightedAverage ((l.map fun c => s c * f c).sum / (l.map s).sum) (l.map f) := by
  refine ⟨l.map fun c => s c / (l.map s).sum, by simp, ?_, ?_, ?_⟩
  · intro x hx
    obtain ⟨c, hc, rfl⟩ := List.mem_map.1 hx
    exact div_nonneg (hs c hc) hpos.le
  · rw [sum_div_list, div_self hpos.ne']
  · rw [← sum_div_list]
    congr 1
    generalize (l.map s).sum = S
    clear hs hpos
    induction l with
    | nil => rfl
    | cons a l ih => simp only [List.map_cons, List.zipWith_cons_cons, ih]; congr 1; ring

theorem plainMean_weighted (l : List K) (h : l ≠ []) : IsWeightedAverage (plainMean l) l := by
  have hpos : (0 : K) < (l.map fun _ => (1 : K)).sum := by
    rw [List.map_const', List.sum_replicate, nsmul_eq_mul, mul_one]
    exact_mod_cast List.length_pos_iff.2 h
  have := weighted_of_list l (fun _ => (1 : K)) id (fun _ _ => zero_le_one) hpos
  rw [List.map_id] at this
  simp only [one_mul, id, List.map_id'] at this
  rw [List.map_const', List.sum_replicate, nsmul_eq_mul, mul_one] at this
  exact this

theorem share_nonneg {G : ι → WithTop ℤ} {w : ι → K} (hw : ∀ i, 0 ≤ w i) (g : ℤ) : 0 ≤ share G w g := by
  unfold share
  refine div_nonneg (Finset.sum_nonneg fun i _ => ?_) (Nat.cast_nonneg _)
  split_ifs
  · exact hw i
  · exact le_rfl

theorem share_pos {G : ι → WithTop ℤ} {w : ι → K} (hw : ∀ i, 0 ≤ w i) {g : ℤ} (h : ∃ i, G i = g ∧ 0 < w i) :
    0 < share G w g := by
  obtain ⟨i, hi, hp⟩ := h
  unfold share
  refine div_pos (Finset.sum_pos' (fun j _ => ?_) ⟨i, Finset.mem_univ _, by simpa [hi] using hp⟩) ?_
  · split_ifs
    · exact hw j
    · exact le_rfl
  · exact_mod_cast Fintype.card_pos_iff.2 ⟨i⟩

theorem list_sum_pos {α : Type*} (l : List α) (s : α → K) (hs : ∀ c ∈ l, 0 ≤ s c) {c : α} (hc : c ∈ l) (h : 0 < s c) :
    0 < (l.map s).sum := by
  induction l with
  | nil => simp at hc
  | cons a l ih =>
    rw [List.map_cons, List.sum_cons]
    have hn : 0 ≤ (l.map s).sum := List.sum_nonneg fun x hx => by
      obtain ⟨b, hb, rfl⟩ := List.mem_map.1 hx
      exact hs b (List.mem_cons_of_mem _ hb)
    rcases List.mem_cons.1 hc with rfl | hc
    · exact add_pos_of_pos_of_nonneg h hn
    · exact add_pos_of_nonneg_of_pos (hs a (List.mem_cons_self ..)) (ih (fun b hb => hs b (List.mem_cons_of_mem _ hb)) hc)

/-- Some cell satisfying `p` belongs to a cohort with a positively weighted unit. -/
def Populated (G : ι → WithTop ℤ) (w : ι → K) (cs : List (Cell ι K)) (p : Cell ι K → Bool) : Prop :=
  ∃ c ∈ cs, p c = true ∧ ∃ i, G i = c.g ∧ 0 < w i

theorem Populated.pos {G : ι → WithTop ℤ} {w : ι → K} {cs : List (Cell ι K)} {p : Cell ι K → Bool}
    (h : Populated G w cs p) (hw : ∀ i, 0 ≤ w i) : 0 < totalShare G w cs p := by
  obtain ⟨c, hc, hp, hi⟩ := h
  exact list_sum_pos _ _ (fun c _ => share_nonneg hw c.g) (List.mem_filter.2 ⟨hc, hp⟩) (share_pos hw hi)

theorem weightedMean_average {G : ι → WithTop ℤ} {w : ι → K} (hw : ∀ i, 0 ≤ w i) {cs : List (Cell ι K)}
    {p : Cell ι K → Bool} (h : Populated G w cs p) :
    IsWeightedAverage (weightedMean G w cs p) ((cs.filter p).map Cell.att) := by
  have := weighted_of_list (cs.filter p) (fun c => share G w c.g) Cell.att (fun c _ => share_nonneg hw c.g) (h.pos hw)
  exact this

/-! ## C31 -/

/-- **C31, simple.** -/
theorem C31_simple (G : ι → WithTop ℤ) (w : ι → K) (hw : ∀ i, 0 ≤ w i) (cs : List (Cell ι K))
    (h : Populated G w cs post) :
    ∃ a, (simpleAgg G w none cs).1 = some a ∧ IsWeightedAverage a ((cs.filter post).map Cell.att) :=
  ⟨_, C32_simple G w cs (h.pos hw).ne', weightedMean_average hw h⟩

/-- With a finite `max_e` the same holds for the cells admitted by it. -/
theorem C31_simple_max (G : ι → WithTop ℤ) (w : ι → K) (hw : ∀ i, 0 ≤ w i) (m : ℤ) (cs : List (Cell ι K))
    (h : Populated G w cs fun c => post c && decide ((steps cs c.g c.t : ℤ) ≤ m)) :
    ∃ a, (simpleAgg G w (some m) cs).1 = some a ∧
      IsWeightedAverage a ((cs.filter fun c => post c && decide ((steps cs c.g c.t : ℤ) ≤ m)).map Cell.att) :=
  ⟨_, C34_simple_counts_steps G w m cs (h.pos hw).ne', weightedMean_average hw h⟩

/-- **C31, dynamic.** Every reported event-time effect is a weighted average of the cells at that event time. -/
theorem C31_dynamic (G : ι → WithTop ℤ) (w : ι → K) (hw : ∀ i, 0 ≤ w i) (minE maxE : Option ℤ)
    (cs : List (Cell ι K)) (x : Eff ι K) (hx : x ∈ (dynamicAgg G w none minE maxE cs).effects)
    (h : Populated G w cs (atEvent x.label)) :
    ∃ a, x.att = some a ∧ IsWeightedAverage a ((cs.filter (atEvent x.label)).map Cell.att) :=
  ⟨_, (C32_dynamic G w minE maxE cs).2.2 x hx (h.pos hw).ne', weightedMean_average hw h⟩

/-- **C31, calendar.** -/
theorem C31_calendar (G : ι → WithTop ℤ) (w : ι → K) (hw : ∀ i, 0 ≤ w i)
    (cs : List (Cell ι K)) (x : Eff ι K) (hx : x ∈ (calendarAgg G w cs).effects)
    (h : Populated G w cs (atPeriod x.label)) :
    ∃ a, x.att = some a ∧ IsWeightedAverage a ((cs.filter (atPeriod x.label)).map Cell.att) :=
  ⟨_, ((C32_calendar G w cs).2.2 x hx).2 (h.pos hw).ne', weightedMean_average hw h⟩

/-- **C31, group.** -/
theorem C31_group (G : ι → WithTop ℤ) (w : ι → K) (cs : List (Cell ι K)) (x : Eff ι K)
    (hx : x ∈ (groupAgg G w none cs).effects) (h : ∃ c ∈ cs, c.g = x.label ∧ x.label ≤ c.t) :
    ∃ a, x.att = some a ∧ IsWeightedAverage a ((cs.filter (ofCohort x.label)).map Cell.att) := by
  refine ⟨_, (((C32_group G w cs).2.2 x hx).2 h).1, plainMean_weighted _ ?_⟩
  obtain ⟨c, hc, h⟩ := h
  have : c ∈ cs.filter (ofCohort x.label) := List.mem_filter.2 ⟨hc, by simpa [ofCohort] using h⟩
  intro he
  rw [List.map_eq_nil_iff] at he
  rw [he] at this; simp at this

example : Populated exG exW exCells post ∧ Populated exG exW exCells (atEvent 0) ∧
    Populated exG exW exCells (atPeriod 2006) ∧ (∀ i, 0 ≤ exW i) :=
  ⟨⟨⟨2004, 2004, 1, ![1, -1, 0, 0, 0, 0]⟩, by simp [exCells], by decide, 0, by decide, by decide +kernel⟩,
   ⟨⟨2004, 2004, 1, ![1, -1, 0, 0, 0, 0]⟩, by simp [exCells], by decide, 0, by decide, by decide +kernel⟩,
   ⟨⟨2006, 2006, 10, fun _ => 0⟩, by simp [exCells], by decide, 2, by decide, by decide +kernel⟩, by decide +kernel⟩

/-! ## C37: overall effects -/

/-- The reported numbers of a list of effects, if none is missing. -/
def numbers (l : List (Eff ι K)) : List K := l.filterMap Eff.att

/-- **C37, group.** If every cohort has an effect, the overall effect is the cohort-share weighted mean of the reported
effects, and (with non-negative weights) a weighted average of them. -/
theorem C37_group_overall (G : ι → WithTop ℤ) (w : ι → K) (hw : ∀ i, 0 ≤ w i) (maxE : Option ℤ)
    (cs : List (Cell ι K)) (hsome : ∀ x ∈ (groupAgg G w maxE cs).effects, x.att.isSome)
    (hpos : ∃ c ∈ cs, ∃ i, G i = c.g ∧ 0 < w i) :
    ∃ a, (groupAgg G w maxE cs).overall = some a ∧
      a = ((groupAgg G w maxE cs).effects.map fun x => share G w x.label * x.att.getD 0).sum /
        ((groupAgg G w maxE cs).effects.map fun x => share G w x.label).sum ∧
      IsWeightedAverage a (numbers (groupAgg G w maxE cs).effects) := by
  set effs := (groupAgg G w maxE cs).effects with heffs
  have heffs' : effs = (uniqueSorted (cs.map Cell.g)).map (groupEff maxE (lookup cs) (recode G w cs)) := rfl
  have hlabel : ∀ g, (groupEff maxE (lookup cs) (recode G w cs) g).label = g := by
    intro g; unfold groupEff; simp only; split_ifs <;> rfl
  have hpg : ∀ x ∈ effs, (effCell (lookup cs) G w x).pg = share G w x.label := by
    intro x hx
    rw [heffs', List.mem_map] at hx
    obtain ⟨g, hg, rfl⟩ := hx
    rw [mem_uniqueSorted, List.mem_map] at hg
    obtain ⟨c, hc, rfl⟩ := hg
    unfold effCell
    simp only [hlabel]
    exact groupProb_code (lookup_pairwise cs) G w (mem_lookup_g hc)
  have hS : sumPg (effs.map (effCell (lookup cs) G w)) = (effs.map fun x => share G w x.label).sum := by
    unfold sumPg
    rw [List.map_map]
    congr 1
    exact List.map_congr_left hpg
  have hnum : ((effs.map (effCell (lookup cs) G w)).map fun c => c.att * c.pg).sum =
      (effs.map fun x => share G w x.label * x.att.getD 0).sum := by
    rw [List.map_map]
    congr 1
    apply List.map_congr_left
    intro x hx
    simp only [Function.comp, hpg x hx]
    unfold effCell
    ring
  have hSpos : 0 < (effs.map fun x => share G w x.label).sum := by
    obtain ⟨c, hc, hi⟩ := hpos
    refine list_sum_pos effs (fun x => share G w x.label) (fun x _ => share_nonneg hw _)
      (c := groupEff maxE (lookup cs) (recode G w cs) c.g) ?_ ?_
    · rw [heffs', List.mem_map]; exact ⟨c.g, by rw [mem_uniqueSorted]; exact List.mem_map_of_mem hc, rfl⟩
    · rw [hlabel]; exact share_pos hw hi
  refine ⟨_, ?_, rfl, ?_⟩
  · have : (groupAgg G w maxE cs).overall = if sumPg (effs.map (effCell (lookup cs) G w)) = 0 then none else
        some (((effs.map (effCell (lookup cs) G w)).map fun c => c.att * c.pg).sum /
          sumPg (effs.map (effCell (lookup cs) G w))) := rfl
    rw [this, hS, if_neg hSpos.ne', hnum]
  · have h := weighted_of_list effs (fun x => share G w x.label) (fun x => x.att.getD 0)
      (fun x _ => share_nonneg hw _) hSpos
    have e : numbers effs = effs.map fun x => x.att.getD 0 := by
      unfold numbers
      clear h hnum hS hSpos hpg heffs'
      clear_value effs
      clear heffs
      induction effs with
      | nil => rfl
      | cons x l ih =>
        obtain ⟨v, hv⟩ := Option.isSome_iff_exists.1 (hsome x (List.mem_cons_self ..))
        rw [List.filterMap_cons_some hv, List.map_cons, hv, ih fun y hy => hsome y (List.mem_cons_of_mem _ hy)]
        rfl
    rw [e]; exact h

example : (∀ x ∈ (groupAgg exG exW none exCells).effects, x.att.isSome) ∧
    (groupAgg exG exW none exCells).overall = some (39 / 4) := by decide +kernel

/-- With `na_rm` and no `max_e`, every cohort reported by group aggregation has an effect. -/
theorem C37_dropna_all_some (G : ι → WithTop ℤ) (w : ι → K) (ics : List (InCell ι K)) (cs : List (Cell ι K))
    (h : prepare true true ics = some cs) : ∀ x ∈ (groupAgg G w none cs).effects, x.att.isSome := by
  intro x hx
  have hspec := C32_group G w cs
  have hl : x.label ∈ (groupAgg G w none cs).effects.map Eff.label := List.mem_map_of_mem hx
  obtain ⟨c, hc, hcg⟩ := (hspec.2.1 _).1 hl
  unfold prepare at h
  simp only [if_true, Option.some.injEq] at h
  have hc2 := hc
  rw [← h, List.mem_filter, List.any_eq_true] at hc2
  obtain ⟨_, c', hc', hp⟩ := hc2
  simp only [Bool.and_eq_true, decide_eq_true_eq] at hp
  have hc'' : c' ∈ cs := by
    rw [← h, List.mem_filter, List.any_eq_true]
    exact ⟨hc', c', hc', by simpa using hp.2⟩
  rw [((hspec.2.2 x hx).2 ⟨c', hc'', hp.1.trans hcg, by rw [← hcg, ← hp.1]; exact hp.2⟩).1]
  rfl

/-- Cohort 2006 has only a pre-treatment estimate. -/
def exPreOnly : List (Cell (Fin 6) ℚ) :=
  [⟨2004, 2005, 6, fun _ => 0⟩, ⟨2004, 2006, 6, fun _ => 0⟩, ⟨2006, 2005, 1, fun _ => 0⟩]

/-- **C37 fails without `na_rm`.** A cohort without post-treatment estimates is reported as NaN but enters the overall
group effect as zero with its full share: all reported effects are 6, the overall effect is 4. -/
theorem C37_group_missing_violated :
    (groupAgg exG exW none exPreOnly).effects.map (fun x => (x.label, x.att)) = [(2004, some 6), (2006, none)] ∧
    (groupAgg exG exW none exPreOnly).overall = some 4 := by decide +kernel

theorem nanMean_all {l : List (Eff ι K)} (hsome : ∀ x ∈ l, x.att.isSome) (hne : l ≠ []) :
    nanMean (l.map Eff.att) = some (plainMean (numbers l)) ∧ (numbers l).length = l.length := by
  have hlen : (numbers l).length = l.length := by
    unfold numbers
    clear hne
    induction l with
    | nil => rfl
    | cons x l ih =>
      obtain ⟨v, hv⟩ := Option.isSome_iff_exists.1 (hsome x (List.mem_cons_self ..))
      rw [List.filterMap_cons_some hv, List.length_cons, ih fun y hy => hsome y (List.mem_cons_of_mem _ hy)]; rfl
  have e : (l.map Eff.att).filterMap id = numbers l := by
    unfold numbers; rw [List.filterMap_map]; rfl
  refine ⟨?_, hlen⟩
  unfold nanMean
  simp only [e]
  rw [if_neg]
  · rfl
  · rw [List.isEmpty_iff]
    intro h0
    rw [h0] at hlen
    exact hne (List.length_eq_zero_iff.1 hlen.symm)

/-- **C37, dynamic.** If every combined event time has a populated cohort, the overall effect is the plain mean of the
reported effects at non-negative event times, and its influence values are the plain means of theirs. -/
theorem C37_dynamic_overall (G : ι → WithTop ℤ) (w : ι → K) (minE maxE : Option ℤ) (cs : List (Cell ι K))
    (hsome : ∀ x ∈ (dynamicAgg G w none minE maxE cs).effects, 0 ≤ x.label → x.att.isSome)
    (hne : ∃ x ∈ (dynamicAgg G w none minE maxE cs).effects, 0 ≤ x.label) :
    let posts := (dynamicAgg G w none minE maxE cs).effects.filter fun x => decide (0 ≤ x.label)
    (dynamicAgg G w none minE maxE cs).overall = some (plainMean (numbers posts)) ∧
      (numbers posts).length = posts.length ∧ IsWeightedAverage (plainMean (numbers posts)) (numbers posts) ∧
      ∀ i, (dynamicAgg G w none minE maxE cs).overallPsi i = plainMean (posts.map fun x => x.psi i) := by
  intro posts
  have hp : posts ≠ [] := by
    obtain ⟨x, hx, h⟩ := hne
    exact List.ne_nil_of_mem (List.mem_filter.2 ⟨hx, by simpa using h⟩)
  obtain ⟨h1, h2⟩ := nanMean_all (l := posts) (fun x hx => hsome x (List.mem_filter.1 hx).1 (by simpa using (List.mem_filter.1 hx).2)) hp
  refine ⟨?_, h2, plainMean_weighted _ ?_, ?_⟩
  · have : (dynamicAgg G w none minE maxE cs).overall =
        if posts.isEmpty then none else nanMean (posts.map Eff.att) := rfl
    rw [this, if_neg (by rw [List.isEmpty_iff]; exact hp), h1]
  · intro h0; rw [h0] at h2; exact hp (List.length_eq_zero_iff.1 h2.symm)
  · intro i
    have : (dynamicAgg G w none minE maxE cs).overallPsi i =
        (posts.map fun x => x.psi i * (1 / (posts.length : K))).sum := rfl
    rw [this, sum_mul_list]
    unfold plainMean
    rw [List.length_map, one_div, div_eq_mul_inv]

example : (∀ x ∈ (dynamicAgg exG exW none none none exCells).effects, x.att.isSome) ∧
    (dynamicAgg exG exW none none none exCells).overall = some (31 / 4) := by decide +kernel

/-- **C37, calendar.** The overall effect is the plain mean of the reported (non-missing) period effects and its
influence values are the plain means of theirs. -/
theorem C37_calendar_overall (G : ι → WithTop ℤ) (w : ι → K) (cs : List (Cell ι K))
    (hne : ∃ x ∈ (calendarAgg G w cs).effects, x.att.isSome) :
    let valid := (calendarAgg G w cs).effects.filter fun x => x.att.isSome
    (calendarAgg G w cs).overall = some (plainMean (numbers valid)) ∧
      (numbers valid).length = valid.length ∧ IsWeightedAverage (plainMean (numbers valid)) (numbers valid) ∧
      ∀ i, (calendarAgg G w cs).overallPsi i = plainMean (valid.map fun x => x.psi i) := by
  intro valid
  have hp : valid ≠ [] := by
    obtain ⟨x, hx, h⟩ := hne
    exact List.ne_nil_of_mem (List.mem_filter.2 ⟨hx, h⟩)
  obtain ⟨h1, h2⟩ := nanMean_all (l := valid) (fun x hx => (List.mem_filter.1 hx).2) hp
  have e : nanMean ((calendarAgg G w cs).effects.map Eff.att) = nanMean (valid.map Eff.att) := by
    unfold nanMean
    have : ((calendarAgg G w cs).effects.map Eff.att).filterMap id = (valid.map Eff.att).filterMap id := by
      show _ = (((calendarAgg G w cs).effects.filter fun x => x.att.isSome).map Eff.att).filterMap id
      generalize (calendarAgg G w cs).effects = l
      induction l with
      | nil => rfl
      | cons x l ih =>
        cases hx : x.att with
        | none =>
          rw [List.filter_cons_of_neg (by simp [hx]), List.map_cons, hx, List.filterMap_cons_none rfl, ih]
        | some v =>
          rw [List.filter_cons_of_pos (by simp [hx]), List.map_cons, List.map_cons, hx]
          show v :: _ = v :: _
          rw [ih]
    simp only [this]
  refine ⟨?_, h2, plainMean_weighted _ ?_, ?_⟩
  · have : (calendarAgg G w cs).overall = nanMean ((calendarAgg G w cs).effects.map Eff.att) := rfl
    rw [this, e, h1]
  · intro h0; rw [h0] at h2; exact hp (List.length_eq_zero_iff.1 h2.symm)
  · intro i
    have : (calendarAgg G w cs).overallPsi i =
        (valid.map fun x => x.psi i * (1 / (valid.length : K))).sum := rfl
    rw [this, sum_mul_list]
    unfold plainMean
    rw [List.length_map, one_div, div_eq_mul_inv]

example : (∃ x ∈ (calendarAgg exG exW exCells).effects, x.att.isSome) ∧
    (calendarAgg exG exW exCells).overall = some ((1 + 14/3 + 50/4) / 3) := by decide +kernel

end

end Verif.Agg
