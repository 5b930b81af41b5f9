import Verif.Prep.Model
import Verif.Panel.Props
import Mathlib.Data.Int.Order.Basic
import Mathlib.Algebra.BigOperators.Ring.List
import Mathlib.Tactic.FieldSimp

/-!
# Preprocessing: properties C13–C17, C20
-/

set_option linter.unusedSectionVars false

namespace Verif.Prep

open Verif.Panel

variable {ι β : Type*}

theorem max?_some_iff {l : List ℤ} {m : ℤ} : l.max? = some m ↔ m ∈ l ∧ ∀ x ∈ l, x ≤ m :=
  List.max?_eq_some_iff

theorem min?_some_iff {l : List ℤ} {m : ℤ} : l.min? = some m ↔ m ∈ l ∧ ∀ x ∈ l, m ≤ x :=
  List.min?_eq_some_iff

theorem finitePart_eq_some {g : WithTop ℤ} {n : ℤ} : finitePart g = some n ↔ g = n := by
  induction g with
  | top => simp [finitePart]
  | coe m => simp [finitePart]

/-! ## C13 -/

theorem encode_t (df : List (Obs ι β)) : (encode df).map Row.t = df.map Row.t := by
  unfold encode
  split
  · rfl
  · simp [setCohort, Function.comp_def]

/-- **C13.** Encoding changes nothing but cohorts, row by row; a unit's cohort becomes "never treated" iff it
was 0, infinite, or later than the last period, and all other cohorts are kept. -/
theorem C13_encode_canonical (df : List (Obs ι β)) (last : ℤ) (hl : IsPeriod df last)
    (hmax : ∀ t, IsPeriod df t → t ≤ last) :
    (encode df).length = df.length ∧
    ∀ k (h : k < df.length) (h' : k < (encode df).length),
      (encode df)[k].id = df[k].id ∧ (encode df)[k].t = df[k].t ∧ (encode df)[k].val.2 = df[k].val.2 ∧
      (cohort (encode df)[k] = ⊤ ↔
        cohort df[k] = 0 ∨ cohort df[k] = ⊤ ∨ (last : WithTop ℤ) < cohort df[k]) ∧
      (cohort (encode df)[k] ≠ ⊤ → cohort (encode df)[k] = cohort df[k]) := by
  have hm : (df.map Row.t).max? = some last := by
    rw [max?_some_iff]
    refine ⟨List.mem_map.2 hl, fun x hx => hmax x (List.mem_map.1 hx)⟩
  have he : encode df = df.map fun r => setCohort r (encodeCohort last (cohort r)) := by
    unfold encode; rw [hm]
  refine ⟨by rw [he]; simp, ?_⟩
  intro k h h'
  have hk : (encode df)[k] = setCohort df[k] (encodeCohort last (cohort df[k])) := by simp [he]
  rw [hk]
  refine ⟨rfl, rfl, rfl, ?_, ?_⟩
  · simp only [setCohort, encodeCohort]
    show (if (last : WithTop ℤ) < (if cohort df[k] = 0 then ⊤ else cohort df[k]) then ⊤ else _) = _ ↔ _
    by_cases h0 : cohort df[k] = 0
    · simp [h0]
    · rw [if_neg h0]
      by_cases h1 : (last : WithTop ℤ) < cohort df[k]
      · simp [h1]
      · simp [h1, h0]
  · simp only [setCohort, encodeCohort]
    show (if (last : WithTop ℤ) < (if cohort df[k] = 0 then ⊤ else cohort df[k]) then ⊤ else
      (if cohort df[k] = 0 then ⊤ else cohort df[k])) ≠ ⊤ → _
    intro hne
    show (if (last : WithTop ℤ) < (if cohort df[k] = 0 then ⊤ else cohort df[k]) then ⊤ else
      (if cohort df[k] = 0 then ⊤ else cohort df[k])) = _
    split_ifs at hne ⊢ <;> simp_all

theorem encodeCohort_idem (last : ℤ) (g : WithTop ℤ) :
    encodeCohort last (encodeCohort last g) = encodeCohort last g := by
  unfold encodeCohort
  by_cases h0 : g = 0
  · simp [h0]
  · by_cases h1 : (last : WithTop ℤ) < g
    · simp [h0, h1]
    · simp [h0, h1]

/-- **C13.** Encoding twice equals encoding once. -/
theorem C13_encode_idempotent (df : List (Obs ι β)) : encode (encode df) = encode df := by
  have ht := encode_t df
  cases hm : (df.map Row.t).max? with
  | none =>
    have : encode df = df := by unfold encode; rw [hm]
    rw [this, this]
  | some last =>
    have he : encode df = df.map fun r => setCohort r (encodeCohort last (cohort r)) := by
      unfold encode; rw [hm]
    have he2 : encode (encode df) = (encode df).map fun r => setCohort r (encodeCohort last (cohort r)) := by
      generalize encode df = d at ht ⊢
      unfold encode
      rw [ht, hm]
    rw [he2]
    conv_lhs => rw [he]
    conv_rhs => rw [he]
    rw [List.map_map]
    apply List.map_congr_left
    intro r _
    simp only [Function.comp, setCohort, cohort, encodeCohort_idem]

/-- Units 1 (cohort 3), 2 (coded 0), 3 (cohort 9, after the data end), 4 (cohort 1) in periods 1…3. -/
def exObs : List (Obs ℕ ℕ) :=
  [⟨1, 1, (3, 10)⟩, ⟨1, 2, (3, 11)⟩, ⟨1, 3, (3, 15)⟩,
   ⟨2, 1, (0, 20)⟩, ⟨2, 2, (0, 21)⟩, ⟨2, 3, (0, 22)⟩,
   ⟨3, 1, (9, 30)⟩, ⟨3, 2, (9, 31)⟩, ⟨3, 3, (9, 32)⟩,
   ⟨4, 1, (1, 40)⟩, ⟨4, 2, (1, 41)⟩, ⟨4, 3, (1, 42)⟩]

example : IsPeriod exObs 3 ∧ (∀ t, IsPeriod exObs t → t ≤ 3) ∧
    ((encode exObs).map cohort).dedup = [3, ⊤, 1] := by
  refine ⟨⟨_, List.mem_cons_of_mem _ (List.mem_cons_of_mem _ List.mem_cons_self), rfl⟩, ?_, by decide⟩
  rintro t ⟨r, hr, rfl⟩
  revert r; decide

/-! ## C14 -/

theorem sum_map_div {K : Type*} [Field K] (w : List K) (m : K) :
    (w.map fun x => x / m).sum = w.sum / m := by
  induction w with
  | nil => simp
  | cons a l ih => simp [ih, add_div]

/-- **C14.** Normalised weights average to one. -/
theorem C14_weights_mean_one {K : Type*} [Field K] [CharZero K] (w : List K) (hs : w.sum ≠ 0) :
    (normalizeWeights w).sum / ((normalizeWeights w).length : K) = 1 := by
  have hl : (w.length : K) ≠ 0 := by
    intro h
    have : w.length = 0 := by exact_mod_cast h
    rw [List.length_eq_zero_iff] at this
    subst this; simp at hs
  simp only [normalizeWeights, List.length_map]
  rw [sum_map_div]
  field_simp

/-- **C14.** The user's scale does not matter. -/
theorem C14_weights_scale_free {K : Type*} [Field K] (w : List K) (c : K) (hc : c ≠ 0) :
    normalizeWeights (w.map fun x => c * x) = normalizeWeights w := by
  simp only [normalizeWeights, List.length_map, List.map_map]
  apply List.map_congr_left
  intro x _
  have : (w.map fun x => c * x).sum = c * w.sum := List.sum_map_mul_left w (fun x => x) c |>.trans (by simp)
  simp only [Function.comp, this]
  rw [mul_div_assoc c w.sum, mul_div_mul_left _ _ hc]

/-- **C14.** Normalisation keeps relative weights (order, ratios): every weight is divided by one number, the
mean of the raw weights. -/
theorem C14_weights_common_factor {K : Type*} [Field K] (w : List K) :
    normalizeWeights w = w.map fun x => x / (w.sum / (w.length : K)) := rfl

example : normalizeWeights ([1, 3, 4, 4] : List ℚ) = [1/3, 1, 4/3, 4/3] ∧ ([1, 3, 4, 4] : List ℚ).sum ≠ 0 := by
  decide +kernel

/-! ## C15 -/

theorem mem_earlyFilter [DecidableEq ι] {a first : ℤ} {df : List (Obs ι β)} (hf : IsPeriod df first)
    (hmin : ∀ t, IsPeriod df t → first ≤ t) {r : Obs ι β} :
    r ∈ earlyFilter a df ↔
      r ∈ df ∧ ∀ s ∈ df, s.id = r.id → ((first + a : ℤ) : WithTop ℤ) < cohort s := by
  have hm : (df.map Row.t).min? = some first := by
    rw [min?_some_iff]
    refine ⟨List.mem_map.2 hf, fun x hx => hmin x (List.mem_map.1 hx)⟩
  unfold earlyFilter
  rw [hm]
  simp only [List.mem_filter, List.mem_map, decide_eq_true_eq, not_exists, not_and, and_imp]
  refine and_congr_right fun _ => ⟨fun h s hs hid => ?_, fun h s hs hg hid => ?_⟩
  · by_contra hc
    exact h s hs (not_lt.1 hc) hid
  · exact absurd (h s hs hid) (not_lt.2 hg)

theorem earlyFilter_sublist [DecidableEq ι] (a : ℤ) (df : List (Obs ι β)) :
    (earlyFilter a df).Sublist df := by
  unfold earlyFilter
  split
  · exact List.Sublist.refl _
  · exact List.filter_sublist

/-- **C15.** With `first` the first period of the data: the filter is an order-preserving selection; no
remaining row has a cohort ≤ first + anticipation; whole units are kept or removed; a unit all of whose rows
have a later cohort keeps all its rows. -/
theorem C15_early_units_removed [DecidableEq ι] (a first : ℤ) (df : List (Obs ι β))
    (hf : IsPeriod df first) (hmin : ∀ t, IsPeriod df t → first ≤ t) :
    (earlyFilter a df).Sublist df ∧
    (∀ r ∈ earlyFilter a df, ((first + a : ℤ) : WithTop ℤ) < cohort r) ∧
    (∀ r ∈ df, ∀ s ∈ df, r.id = s.id → (r ∈ earlyFilter a df ↔ s ∈ earlyFilter a df)) ∧
    (∀ u, (∀ r ∈ df, r.id = u → ((first + a : ℤ) : WithTop ℤ) < cohort r) →
      ∀ r ∈ df, r.id = u → r ∈ earlyFilter a df) := by
  refine ⟨earlyFilter_sublist a df, ?_, ?_, ?_⟩
  · intro r hr
    rw [mem_earlyFilter hf hmin] at hr
    exact hr.2 r hr.1 rfl
  · intro r hr s hs h
    rw [mem_earlyFilter hf hmin, mem_earlyFilter hf hmin, h]
    simp [hr, hs]
  · intro u hu r hr hru
    rw [mem_earlyFilter hf hmin]
    exact ⟨hr, fun s hs hsr => hu s hs (hsr.trans hru)⟩

example : IsPeriod (encode exObs) 1 ∧ (∀ t, IsPeriod (encode exObs) t → 1 ≤ t) ∧
    ((earlyFilter 0 (encode exObs)).map Row.id).dedup = [1, 2, 3] := by
  refine ⟨⟨_, List.mem_cons_self, rfl⟩, ?_, by decide⟩
  rintro t ⟨r, hr, rfl⟩
  revert r; decide

/-! ## C16, C17 -/

/-- Specification: the cohort is constant within each unit. -/
def CohortConstant (df : List (Obs ι β)) : Prop :=
  ∀ r ∈ df, ∀ s ∈ df, r.id = s.id → cohort r = cohort s

theorem isPeriod_encode {df : List (Obs ι β)} {t : ℤ} : IsPeriod (encode df) t ↔ IsPeriod df t := by
  simp only [IsPeriod]
  rw [← List.mem_map, ← List.mem_map, encode_t]

theorem encode_map (df : List (Obs ι β)) : ∃ f : WithTop ℤ → WithTop ℤ,
    encode df = df.map fun r => setCohort r (f (cohort r)) := by
  unfold encode
  cases (df.map Row.t).max? with
  | none => exact ⟨id, by simp [setCohort, cohort]⟩
  | some last => exact ⟨encodeCohort last, rfl⟩

theorem observed_map {f : Obs ι β → Obs ι β} (hf : ∀ r, (f r).id = r.id ∧ (f r).t = r.t)
    {df : List (Obs ι β)} {u : ι} {t : ℤ} : Observed (df.map f) u t ↔ Observed df u t := by
  simp only [Observed, List.mem_map]
  constructor
  · rintro ⟨_, ⟨r, hr, rfl⟩, h1, h2⟩
    exact ⟨r, hr, (hf r).1.symm.trans h1, (hf r).2.symm.trans h2⟩
  · rintro ⟨r, hr, h1, h2⟩
    exact ⟨_, ⟨r, hr, rfl⟩, (hf r).1.trans h1, (hf r).2.trans h2⟩

theorem balanced_iff_observed {df : List (Obs ι β)} :
    Balanced df ↔ ∀ u t u' t', Observed df u t' → Observed df u' t → Observed df u t := by
  constructor
  · intro h u t u' t' h1 h2
    obtain ⟨r, hr, hr1, _⟩ := h1
    obtain ⟨s, hs, _, hs1⟩ := h2
    exact h u ⟨r, hr, hr1⟩ t ⟨s, hs, hs1⟩
  · rintro h u ⟨r, hr, rfl⟩ t ⟨s, hs, rfl⟩
    exact h r.id s.t s.id r.t ⟨r, hr, rfl, rfl⟩ ⟨s, hs, rfl, rfl⟩

theorem balanced_map {f : Obs ι β → Obs ι β} (hf : ∀ r, (f r).id = r.id ∧ (f r).t = r.t)
    {df : List (Obs ι β)} : Balanced (df.map f) ↔ Balanced df := by
  rw [balanced_iff_observed, balanced_iff_observed]
  simp only [observed_map hf]

theorem noDup_map {f : Obs ι β → Obs ι β} (hf : ∀ r, (f r).id = r.id ∧ (f r).t = r.t)
    {df : List (Obs ι β)} (h : NoDuplicates df) : NoDuplicates (df.map f) := by
  unfold NoDuplicates at *
  rw [List.pairwise_map]
  refine h.imp ?_
  intro a b hab
  rw [(hf a).1, (hf a).2, (hf b).1, (hf b).2]; exact hab

theorem balanced_filter_units {df : List (Obs ι β)} (hb : Balanced df) (p : ι → Prop) (q : ℤ → Prop)
    {out : List (Obs ι β)} (hout : ∀ r, r ∈ out ↔ r ∈ df ∧ p r.id ∧ q r.t) : Balanced out := by
  rintro u ⟨r, hr, rfl⟩ t ⟨s, hs, rfl⟩
  rw [hout] at hr hs
  obtain ⟨x, hx, h1, h2⟩ := hb r.id ⟨r, hr.1, rfl⟩ s.t ⟨s, hs.1, rfl⟩
  exact ⟨x, (hout x).2 ⟨hx, h1 ▸ hr.2.1, h2 ▸ hs.2.2⟩, h1, h2⟩

theorem leTGI_trans [LinearOrder ι] : IsTrans (Obs ι β) leTGI := ⟨by
  intro a b c h1 h2
  unfold leTGI at *
  rcases h1 with h1 | ⟨h1, h1'⟩ <;> rcases h2 with h2 | ⟨h2, h2'⟩
  · left; omega
  · left; omega
  · left; omega
  · right
    refine ⟨h1.trans h2, ?_⟩
    rcases h1' with h1' | ⟨h1', h1''⟩ <;> rcases h2' with h2' | ⟨h2', h2''⟩
    · exact Or.inl (h1'.trans h2')
    · exact Or.inl (h2' ▸ h1')
    · exact Or.inl (h1' ▸ h2')
    · exact Or.inr ⟨h1'.trans h2', h1''.trans h2''⟩⟩

theorem leTGI_total [LinearOrder ι] : Std.Total (leTGI (ι := ι) (β := β)) := ⟨by
  intro a b
  unfold leTGI
  rcases lt_trichotomy a.t b.t with h | h | h
  · exact Or.inl (Or.inl h)
  · rcases lt_trichotomy (cohort a) (cohort b) with h' | h' | h'
    · exact Or.inl (Or.inr ⟨h, Or.inl h'⟩)
    · rcases le_total a.id b.id with h'' | h''
      · exact Or.inl (Or.inr ⟨h, Or.inr ⟨h', h''⟩⟩)
      · exact Or.inr (Or.inr ⟨h.symm, Or.inr ⟨h'.symm, h''⟩⟩)
    · exact Or.inr (Or.inr ⟨h.symm, Or.inl h'⟩)
  · exact Or.inr (Or.inl h)⟩

attribute [local instance] leTGI_trans leTGI_total

theorem sortTGI_perm [LinearOrder ι] (df : List (Obs ι β)) : (sortTGI df).Perm df :=
  List.perm_insertionSort _ _

theorem mem_sortTGI [LinearOrder ι] {df : List (Obs ι β)} {r : Obs ι β} : r ∈ sortTGI df ↔ r ∈ df :=
  (sortTGI_perm df).mem_iff

theorem sortTGI_pairwise [LinearOrder ι] (df : List (Obs ι β)) : (sortTGI df).Pairwise leTGI :=
  List.pairwise_insertionSort leTGI df

/-- Rows of the control-group step, in one formula. -/
theorem controlGroup_cases [LinearOrder ι] (cg : ControlGroup) (a : ℤ) (df : List (Obs ι β)) :
    (⊤ ∈ df.map cohort ∧ controlGroup cg a df = df) ∨ (df = [] ∧ controlGroup cg a df = []) ∨
    ∃ latest : ℤ, ⊤ ∉ df.map cohort ∧ (∃ r ∈ df, cohort r = latest) ∧
      (∀ r ∈ df, cohort r ≤ (latest : WithTop ℤ)) ∧
      controlGroup cg a df = (df.filter fun r => r.t < latest - a).map fun r =>
        if cg = .neverTreated ∧ cohort r = (latest : WithTop ℤ) then setCohort r ⊤ else r := by
  by_cases ht : ⊤ ∈ df.map cohort
  · exact Or.inl ⟨ht, by rw [controlGroup, if_pos ht]⟩
  · right
    cases hm : ((df.map cohort).filterMap finitePart).max? with
    | none =>
      left
      have hdf : df = [] := by
        rw [List.max?_eq_none_iff] at hm
        cases df with
        | nil => rfl
        | cons r l =>
          exfalso
          have hr : cohort r ≠ ⊤ := fun h => ht (by simp [h])
          obtain ⟨g, hg⟩ := WithTop.ne_top_iff_exists.1 hr
          have : g ∈ (((r :: l).map cohort).filterMap finitePart) := by
            rw [List.mem_filterMap]
            exact ⟨cohort r, by simp, finitePart_eq_some.2 hg.symm⟩
          rw [hm] at this; cases this
      subst hdf
      exact ⟨rfl, rfl⟩
    | some latest =>
      right
      have hmm := hm
      rw [max?_some_iff] at hm
      refine ⟨latest, ht, ?_, ?_, ?_⟩
      · obtain ⟨g, hg, hg'⟩ := List.mem_filterMap.1 hm.1
        obtain ⟨r, hr, rfl⟩ := List.mem_map.1 hg
        exact ⟨r, hr, finitePart_eq_some.1 hg'⟩
      · intro r hr
        have hr' : cohort r ≠ ⊤ := fun h => ht (List.mem_map.2 ⟨r, hr, h⟩)
        obtain ⟨g, hg⟩ := WithTop.ne_top_iff_exists.1 hr'
        rw [← hg]
        exact WithTop.coe_le_coe.2 (hm.2 g (List.mem_filterMap.2
          ⟨cohort r, List.mem_map.2 ⟨r, hr, rfl⟩, finitePart_eq_some.2 hg.symm⟩))
      · rw [controlGroup, if_neg ht, hmm]
        cases cg <;> simp

theorem cohortConstant_map {f : WithTop ℤ → WithTop ℤ} {df : List (Obs ι β)} (h : CohortConstant df) :
    CohortConstant (df.map fun r => setCohort r (f (cohort r))) := by
  intro r hr s hs hid
  obtain ⟨r', hr', rfl⟩ := List.mem_map.1 hr
  obtain ⟨s', hs', rfl⟩ := List.mem_map.1 hs
  show f _ = f _
  rw [h r' hr' s' hs' hid]

/-- Everything that survives preprocessing of a balanced panel, in one statement. -/
theorem pipeline_balanced [LinearOrder ι] (cg : ControlGroup) (a : ℤ) (df out : List (Obs ι β))
    (hnd : NoDuplicates df) (hbal : Balanced df) (hcc : CohortConstant df)
    (hout : pipeline cg a df = some out) :
    ∃ first, IsPeriod out first ∧ (∀ t, IsPeriod df t → first ≤ t) ∧
      (∀ r ∈ out, ((first + a : ℤ) : WithTop ℤ) < cohort r) ∧ Balanced out ∧ NoDuplicates out ∧
      CohortConstant out ∧
      (∃ r ∈ out, ∀ t, IsPeriod out t → ((t + a : ℤ) : WithTop ℤ) < cohort r) ∧
      (cg = .neverTreated → ∃ r ∈ out, cohort r = ⊤) := by
  unfold pipeline at hout
  obtain ⟨f, hf⟩ := encode_map df
  have hper : ∀ t, IsPeriod (encode df) t ↔ IsPeriod df t := fun t => isPeriod_encode
  generalize hd1 : encode df = d1 at hout hf hper
  have hft : ∀ r : Obs ι β, (setCohort r (f (cohort r))).id = r.id ∧ (setCohort r (f (cohort r))).t = r.t :=
    fun r => ⟨rfl, rfl⟩
  have hb1 : Balanced d1 := by rw [hf]; exact (balanced_map hft).2 hbal
  have hn1 : NoDuplicates d1 := by rw [hf]; exact noDup_map hft hnd
  have hc1 : CohortConstant d1 := by rw [hf]; exact cohortConstant_map hcc
  generalize hd2 : earlyFilter a d1 = d2 at hout
  generalize hd3 : controlGroup cg a d2 = d3 at hout
  -- output nonempty
  obtain ⟨o4, ho4, rfl⟩ : ∃ o4, balance d3 = some o4 ∧ sortTGI o4 = out := by
    simpa [Option.map_eq_some_iff] using hout
  have ho4' : o4 = makeBalanced d3 ∧ makeBalanced d3 ≠ [] := by
    unfold balance at ho4
    by_cases he : (makeBalanced d3).isEmpty
    · simp [he] at ho4
    · simp [he] at ho4
      exact ⟨ho4.symm, by simpa [List.isEmpty_iff] using he⟩
  have hd3ne : d3 ≠ [] := by
    rintro rfl; exact ho4'.2 (by simp [makeBalanced])
  have hd2ne : d2 ≠ [] := by
    rintro rfl
    exact hd3ne (by rw [← hd3]; rfl)
  have hd1ne : d1 ≠ [] := by
    rintro rfl
    exact hd2ne (by rw [← hd2]; rfl)
  -- first period
  cases hm : (d1.map Row.t).min? with
  | none => rw [List.min?_eq_none_iff, List.map_eq_nil_iff] at hm; exact absurd hm hd1ne
  | some first =>
  rw [min?_some_iff] at hm
  have hper1 : IsPeriod d1 first := List.mem_map.1 hm.1
  have hmin1 : ∀ t, IsPeriod d1 t → first ≤ t := fun t ht => hm.2 t (List.mem_map.2 ht)
  have hmem2 : ∀ r, r ∈ d2 ↔ r ∈ d1 ∧ (∀ s ∈ d1, s.id = r.id → ((first + a : ℤ) : WithTop ℤ) < cohort s) :=
    fun r => by rw [← hd2]; exact mem_earlyFilter hper1 hmin1
  have hb2 : Balanced d2 := balanced_filter_units hb1
    (fun u => ∀ s ∈ d1, s.id = u → ((first + a : ℤ) : WithTop ℤ) < cohort s) (fun _ => True)
    (fun r => by rw [hmem2]; simp)
  have hn2 : NoDuplicates d2 := List.Pairwise.sublist (hd2 ▸ earlyFilter_sublist a d1) hn1
  have hc2 : CohortConstant d2 := fun r hr s hs h => hc1 r ((hmem2 r).1 hr).1 s ((hmem2 s).1 hs).1 h
  have hlate2 : ∀ r ∈ d2, ((first + a : ℤ) : WithTop ℤ) < cohort r := fun r hr =>
    ((hmem2 r).1 hr).2 r ((hmem2 r).1 hr).1 rfl
  have hfirst2 : ∀ r ∈ d2, ∃ s ∈ d2, s.id = r.id ∧ s.t = first := by
    intro r hr
    obtain ⟨s, hs, h1, h2⟩ := hb1 r.id ⟨r, ((hmem2 r).1 hr).1, rfl⟩ first hper1
    refine ⟨s, ?_, h1, h2⟩
    rw [hmem2] at hr ⊢
    exact ⟨hs, fun x hx hxs => hr.2 x hx (hxs.trans h1)⟩
  -- statement for d3
  have key : IsPeriod d3 first ∧ (∀ r ∈ d3, ((first + a : ℤ) : WithTop ℤ) < cohort r) ∧ Balanced d3 ∧
      NoDuplicates d3 ∧ CohortConstant d3 ∧
      (∃ r ∈ d3, ∀ t, IsPeriod d3 t → ((t + a : ℤ) : WithTop ℤ) < cohort r) ∧
      (cg = .neverTreated → ∃ r ∈ d3, cohort r = ⊤) := by
    rcases controlGroup_cases cg a d2 with ⟨h1, h2⟩ | ⟨h1, _⟩ | ⟨latest, h1, ⟨r0, hr0, hg0⟩, h3, h4⟩
    · rw [← hd3, h2]
      obtain ⟨r, hr, hrt⟩ := List.mem_map.1 h1
      obtain ⟨s, hs, _, hs2⟩ := hfirst2 r hr
      refine ⟨⟨s, hs, hs2⟩, hlate2, hb2, hn2, hc2, ⟨r, hr, fun t _ => ?_⟩, fun _ => ⟨r, hr, hrt⟩⟩
      rw [hrt]; exact WithTop.coe_lt_top _
    · exact absurd h1 hd2ne
    · have hfl : first < latest - a := by
        have := hlate2 r0 hr0
        rw [hg0] at this
        have := WithTop.coe_lt_coe.1 this
        omega
      rw [hd3] at h4
      let F : WithTop ℤ → WithTop ℤ := fun g => if cg = .neverTreated ∧ g = (latest : WithTop ℤ) then ⊤ else g
      have h4' : d3 = (d2.filter fun r => r.t < latest - a).map fun r => setCohort r (F (cohort r)) := by
        rw [h4]
        apply List.map_congr_left
        intro r _
        show _ = setCohort r (if cg = .neverTreated ∧ cohort r = (latest : WithTop ℤ) then ⊤ else cohort r)
        split_ifs with h
        · rfl
        · rfl
      have hFle : ∀ g, g ≤ F g := by
        intro g; show g ≤ if _ then _ else _
        split_ifs
        · exact le_top
        · exact le_rfl
      have hFt : ∀ r : Obs ι β, (setCohort r (F (cohort r))).id = r.id ∧
        (setCohort r (F (cohort r))).t = r.t := fun r => ⟨rfl, rfl⟩
      have hmemf : ∀ r, r ∈ (d2.filter fun r => r.t < latest - a) ↔ r ∈ d2 ∧ r.t < latest - a := by
        intro r; simp
      have hbf : Balanced (d2.filter fun r => r.t < latest - a) :=
        balanced_filter_units hb2 (fun _ => True) (fun t => t < latest - a)
          (fun r => by rw [hmemf]; simp)
      have hnf : NoDuplicates (d2.filter fun r => r.t < latest - a) :=
        List.Pairwise.sublist List.filter_sublist hn2
      have hcf : CohortConstant (d2.filter fun r => r.t < latest - a) :=
        fun r hr s hs h => hc2 r ((hmemf r).1 hr).1 s ((hmemf s).1 hs).1 h
      obtain ⟨s0, hs0, hs1, hs2⟩ := hfirst2 r0 hr0
      have hg1 : cohort s0 = latest := (hc2 s0 hs0 r0 hr0 hs1).trans hg0
      have hs0f : s0 ∈ d2.filter fun r => r.t < latest - a := (hmemf s0).2 ⟨hs0, by omega⟩
      have hs03 : setCohort s0 (F (cohort s0)) ∈ d3 := by
        rw [h4']; exact List.mem_map.2 ⟨s0, hs0f, rfl⟩
      refine ⟨⟨_, hs03, hs2⟩, ?_, h4' ▸ (balanced_map hFt).2 hbf, h4' ▸ noDup_map hFt hnf,
        h4' ▸ cohortConstant_map hcf, ⟨_, hs03, ?_⟩, ?_⟩
      · intro r hr
        rw [h4'] at hr
        obtain ⟨s, hs, rfl⟩ := List.mem_map.1 hr
        exact lt_of_lt_of_le (hlate2 s ((hmemf s).1 hs).1) (hFle _)
      · rintro t ⟨r, hr, rfl⟩
        rw [h4'] at hr
        obtain ⟨s, hs, rfl⟩ := List.mem_map.1 hr
        refine lt_of_lt_of_le ?_ (hFle _)
        rw [hg1]
        exact WithTop.coe_lt_coe.2 (by have := ((hmemf s).1 hs).2; show s.t + a < latest; omega)
      · intro hcg
        refine ⟨_, hs03, ?_⟩
        show F (cohort s0) = ⊤
        show (if _ then _ else _) = _
        rw [if_pos ⟨hcg, hg1⟩]
  obtain ⟨k1, k2, k3, k4, k5, k6, k7⟩ := key
  have hall : makeBalanced d3 = d3 := by
    classical
    rw [makeBalanced_spec k4, List.filter_eq_self]
    intro r hr
    exact decide_eq_true (k3 _ ⟨r, hr, rfl⟩)
  rw [ho4'.1, hall]
  have hmem : ∀ r, r ∈ sortTGI d3 ↔ r ∈ d3 := fun r => mem_sortTGI
  have hO : ∀ u t, Observed (sortTGI d3) u t ↔ Observed d3 u t := by
    intro u t; simp only [Observed, hmem]
  have hP : ∀ t, IsPeriod (sortTGI d3) t ↔ IsPeriod d3 t := by
    intro t; simp only [IsPeriod, hmem]
  refine ⟨first, (hP _).2 k1, fun t ht => hmin1 t ((hper t).2 ht), fun r hr => k2 r ((hmem r).1 hr), ?_, ?_, ?_, ?_, ?_⟩
  · rw [balanced_iff_observed] at k3 ⊢
    simp only [hO]; exact k3
  · rw [noDuplicates_iff] at k4 ⊢
    exact ((sortTGI_perm d3).map _).nodup_iff.2 k4
  · intro r hr s hs h; exact k5 r ((hmem r).1 hr) s ((hmem s).1 hs) h
  · obtain ⟨r, hr, h⟩ := k6
    exact ⟨r, (hmem r).2 hr, fun t ht => h t ((hP t).1 ht)⟩
  · intro hcg
    obtain ⟨r, hr, h⟩ := k7 hcg
    exact ⟨r, (hmem r).2 hr, h⟩

/-- **C16.** After preprocessing a balanced duplicate-free panel with unit-constant cohorts, every treated
cohort `g` still has a base period: a period `t` of the preprocessed data with `t + anticipation < g`. -/
theorem C16_base_period_exists [LinearOrder ι] (cg : ControlGroup) (a : ℤ) (df out : List (Obs ι β))
    (hnd : NoDuplicates df) (hbal : Balanced df) (hcc : CohortConstant df)
    (hout : pipeline cg a df = some out) :
    ∀ r ∈ out, ∀ g : ℤ, cohort r = g → ∃ t, IsPeriod out t ∧ t + a < g := by
  obtain ⟨first, h1, _, h2, _⟩ := pipeline_balanced cg a df out hnd hbal hcc hout
  intro r hr g hg
  refine ⟨first, h1, ?_⟩
  have := h2 r hr
  rw [hg] at this
  exact WithTop.coe_lt_coe.1 this

/-- **C17.** After preprocessing a balanced duplicate-free panel there is always a comparison group: with
never-treated controls a unit coded never treated; with not-yet-treated controls a unit that is untreated
(allowing for anticipation) in every remaining period. -/
theorem C17_comparison_group_exists [LinearOrder ι] (cg : ControlGroup) (a : ℤ) (df out : List (Obs ι β))
    (hnd : NoDuplicates df) (hbal : Balanced df) (hcc : CohortConstant df)
    (hout : pipeline cg a df = some out) :
    (cg = .neverTreated → ∃ r ∈ out, cohort r = ⊤) ∧
    ∃ r ∈ out, ∀ t, IsPeriod out t → ((t + a : ℤ) : WithTop ℤ) < cohort r := by
  obtain ⟨first, _, _, _, _, _, _, h1, h2⟩ := pipeline_balanced cg a df out hnd hbal hcc hout
  exact ⟨h2, h1⟩

/-- **C17.** The control-group step itself: nothing changes when a never-treated unit exists; otherwise
exactly the periods before (last cohort − anticipation) are kept, and with never-treated controls the last
cohort — and only it — is recoded as never treated. -/
theorem C17_controlGroup_step [LinearOrder ι] (cg : ControlGroup) (a : ℤ) (df : List (Obs ι β)) :
    ((∃ r ∈ df, cohort r = ⊤) → controlGroup cg a df = df) ∧
    ∀ latest : ℤ, (∀ r ∈ df, cohort r ≠ ⊤) → (∃ r ∈ df, cohort r = latest) →
      (∀ r ∈ df, cohort r ≤ (latest : WithTop ℤ)) →
      (cg = .notYetTreated → controlGroup cg a df = df.filter fun r => decide (r.t + a < latest)) ∧
      (cg = .neverTreated → controlGroup cg a df =
        (df.filter fun r => decide (r.t + a < latest)).map fun r =>
          ⟨r.id, r.t, (if r.val.1 = (latest : WithTop ℤ) then ⊤ else r.val.1, r.val.2)⟩) := by
  refine ⟨fun ⟨r, hr, h⟩ => by rw [controlGroup, if_pos (List.mem_map.2 ⟨r, hr, h⟩)], ?_⟩
  intro latest hnt hex hle
  have hfilt : ∀ l : List (Obs ι β), ∀ c : ℤ, (l.filter fun r => decide (r.t < c - a)) =
      l.filter fun r => decide (r.t + a < c) := by
    intro l c; apply List.filter_congr; intro r _; rw [decide_eq_decide]; omega
  rcases controlGroup_cases cg a df with ⟨h1, _⟩ | ⟨h1, _⟩ | ⟨latest', h1, ⟨r0, hr0, hg0⟩, h3, h4⟩
  · obtain ⟨r, hr, h⟩ := List.mem_map.1 h1
    exact absurd h (hnt r hr)
  · obtain ⟨r, hr, _⟩ := hex; subst h1; cases hr
  · have : latest' = latest := by
      apply le_antisymm
      · have := hle r0 hr0; rw [hg0] at this; exact WithTop.coe_le_coe.1 this
      · obtain ⟨r, hr, hg⟩ := hex
        have := h3 r hr; rw [hg] at this; exact WithTop.coe_le_coe.1 this
    subst this
    rw [h4]
    refine ⟨fun h => ?_, fun h => ?_⟩
    · rw [← hfilt]; simp [h]
    · rw [← hfilt]
      apply List.map_congr_left
      intro r _
      simp only [h, true_and, cohort, setCohort]
      split_ifs <;> rfl

example : NoDuplicates exObs ∧ Balanced exObs ∧ CohortConstant exObs ∧
    (pipeline .notYetTreated 0 exObs).isSome ∧ (pipeline .neverTreated 1 exObs).isSome := by
  refine ⟨by unfold NoDuplicates; decide, by rw [← isBalanced_iff]; decide, by unfold CohortConstant; decide,
    by decide, by decide⟩

/-- A balanced panel without never-treated units (cohorts 2, 3, 4 in periods 1…4). -/
def exNoNever : List (Obs ℕ ℕ) :=
  [⟨1, 1, (2, 0)⟩, ⟨1, 2, (2, 0)⟩, ⟨1, 3, (2, 0)⟩, ⟨1, 4, (2, 0)⟩,
   ⟨2, 1, (3, 0)⟩, ⟨2, 2, (3, 0)⟩, ⟨2, 3, (3, 0)⟩, ⟨2, 4, (3, 0)⟩,
   ⟨3, 1, (4, 0)⟩, ⟨3, 2, (4, 0)⟩, ⟨3, 3, (4, 0)⟩, ⟨3, 4, (4, 0)⟩]

example : pipeline .neverTreated 0 exNoNever =
    some [⟨1, 1, (2, 0)⟩, ⟨2, 1, (3, 0)⟩, ⟨3, 1, (⊤, 0)⟩, ⟨1, 2, (2, 0)⟩, ⟨2, 2, (3, 0)⟩, ⟨3, 2, (⊤, 0)⟩,
      ⟨1, 3, (2, 0)⟩, ⟨2, 3, (3, 0)⟩, ⟨3, 3, (⊤, 0)⟩] := by decide

/-- **C16, violated for unbalanced input.** If the units observed in the first period are all dropped as early
treated, that period disappears and a cohort treated in what is now the first period has no base period. -/
theorem C16_base_period_violated :
    ∃ (df out : List (Obs ℕ ℕ)), NoDuplicates df ∧ CohortConstant df ∧
      pipeline .notYetTreated 0 df = some out ∧
      ∃ r ∈ out, cohort r = (2 : ℤ) ∧ ∀ t, IsPeriod out t → ¬ t + 0 < 2 := by
  refine ⟨[⟨1, 1, (1, 0)⟩, ⟨1, 2, (1, 0)⟩, ⟨2, 2, (2, 0)⟩, ⟨2, 3, (2, 0)⟩, ⟨3, 2, (0, 0)⟩, ⟨3, 3, (0, 0)⟩],
    [⟨2, 2, (2, 0)⟩, ⟨3, 2, (⊤, 0)⟩, ⟨2, 3, (2, 0)⟩, ⟨3, 3, (⊤, 0)⟩],
    by unfold NoDuplicates; decide, by unfold CohortConstant; decide, by decide,
    ⟨2, 2, (2, 0)⟩, by decide, rfl, ?_⟩
  rintro t ⟨r, hr, rfl⟩
  revert r; decide

/-! ## C20 -/

theorem encode_perm {df df' : List (Obs ι β)} (h : df.Perm df') : (encode df).Perm (encode df') := by
  have hm : (df.map Row.t).max? = (df'.map Row.t).max? := by
    cases h1 : (df'.map Row.t).max? with
    | none =>
      rw [List.max?_eq_none_iff, List.map_eq_nil_iff] at h1
      subst h1
      rw [h.eq_nil]; rfl
    | some m =>
      rw [max?_some_iff] at h1 ⊢
      exact ⟨((h.map _).mem_iff).2 h1.1, fun x hx => h1.2 x (((h.map _).mem_iff).1 hx)⟩
  unfold encode
  rw [hm]
  split
  · exact h
  · exact h.map _

theorem earlyFilter_perm [DecidableEq ι] {a : ℤ} {df df' : List (Obs ι β)} (h : df.Perm df') :
    (earlyFilter a df).Perm (earlyFilter a df') := by
  have hm : (df.map Row.t).min? = (df'.map Row.t).min? := by
    cases h1 : (df'.map Row.t).min? with
    | none =>
      rw [List.min?_eq_none_iff, List.map_eq_nil_iff] at h1
      subst h1
      rw [h.eq_nil]; rfl
    | some m =>
      rw [min?_some_iff] at h1 ⊢
      exact ⟨((h.map _).mem_iff).2 h1.1, fun x hx => h1.2 x (((h.map _).mem_iff).1 hx)⟩
  unfold earlyFilter
  rw [hm]
  split
  · exact h
  · rename_i first _
    refine List.Perm.trans (h.filter _) (List.Perm.of_eq ?_)
    apply List.filter_congr
    intro r _
    rw [decide_eq_decide, not_iff_not]
    exact ((h.filter _).map _).mem_iff

theorem controlGroup_perm {cg : ControlGroup} {a : ℤ} {df df' : List (Obs ι β)} (h : df.Perm df') :
    (controlGroup cg a df).Perm (controlGroup cg a df') := by
  have hm : ((df.map cohort).filterMap finitePart).max? =
      ((df'.map cohort).filterMap finitePart).max? := by
    have hp : ((df.map cohort).filterMap finitePart).Perm
      ((df'.map cohort).filterMap finitePart) := (h.map _).filterMap _
    cases h1 : ((df'.map cohort).filterMap finitePart).max? with
    | none =>
      rw [List.max?_eq_none_iff] at h1
      rw [h1] at hp
      rw [hp.eq_nil]; rfl
    | some m =>
      rw [max?_some_iff] at h1 ⊢
      exact ⟨hp.mem_iff.2 h1.1, fun x hx => h1.2 x (hp.mem_iff.1 hx)⟩
  unfold controlGroup
  rw [hm]
  simp only [(h.map cohort).mem_iff]
  split_ifs
  · exact h
  · split
    · exact h
    · cases cg
      · exact (h.filter _).map _
      · exact h.filter _

theorem makeBalanced_perm [DecidableEq ι] {df df' : List (Obs ι β)} (h : df.Perm df') :
    (makeBalanced df).Perm (makeBalanced df') := by
  rw [makeBalanced_eq_filter, makeBalanced_eq_filter]
  refine List.Perm.trans (h.filter _) (List.Perm.of_eq ?_)
  apply List.filter_congr
  intro r _
  rw [decide_eq_decide, (h.filter _).length_eq]
  have : nUnique (df.map Row.t) = nUnique (df'.map Row.t) := by
    rw [nUnique_eq_card, nUnique_eq_card, List.toFinset_eq_of_perm _ _ (h.map _)]
  rw [this]

/-- On duplicate-free data the sort order is antisymmetric, so sorting gives one result per set of rows. -/
theorem sortTGI_eq_of_perm [LinearOrder ι] {df df' : List (Obs ι β)} (h : df.Perm df')
    (hn : NoDuplicates df) : sortTGI df = sortTGI df' := by
  have hp : (sortTGI df).Perm (sortTGI df') :=
    (sortTGI_perm df).trans (h.trans (sortTGI_perm df').symm)
  refine List.Perm.eq_of_pairwise ?_ (sortTGI_pairwise df) (sortTGI_pairwise df') hp
  intro a b ha hb hab hba
  have ha' : a ∈ df := mem_sortTGI.1 ha
  have hb' : b ∈ df := h.mem_iff.2 (mem_sortTGI.1 hb)
  have ht : a.t = b.t := by unfold leTGI at hab hba; omega
  have hid : a.id = b.id := by
    unfold leTGI at hab hba
    simp only [ht, lt_irrefl, true_and, false_or] at hab hba
    rcases hab with hab | hab <;> rcases hba with hba | hba
    · exact absurd (hab.trans hba) (lt_irrefl _)
    · rw [hba.1] at hab; exact absurd hab (lt_irrefl _)
    · rw [hab.1] at hba; exact absurd hba (lt_irrefl _)
    · exact le_antisymm hab.2 hba.2
  have := filter_key_singleton hn ha'
  have hbm : b ∈ df.filter fun s => (s.id, s.t) = (a.id, a.t) := by
    simp [hb', hid, ht]
  rw [this] at hbm
  exact (List.mem_singleton.1 hbm).symm

theorem noDup_encode {df : List (Obs ι β)} (h : NoDuplicates df) : NoDuplicates (encode df) := by
  obtain ⟨f, hf⟩ := encode_map df
  rw [hf]; exact noDup_map (f := fun r => setCohort r (f (cohort r))) (fun r => ⟨rfl, rfl⟩) h

theorem noDup_controlGroup [LinearOrder ι] {cg : ControlGroup} {a : ℤ} {df : List (Obs ι β)}
    (h : NoDuplicates df) : NoDuplicates (controlGroup cg a df) := by
  rcases controlGroup_cases cg a df with ⟨_, h2⟩ | ⟨_, h2⟩ | ⟨latest, _, _, _, h2⟩
  · rw [h2]; exact h
  · rw [h2]; exact List.Pairwise.nil
  · rw [h2]
    apply noDup_map
    · intro r; split_ifs <;> exact ⟨rfl, rfl⟩
    · exact h.filter _

/-- **C20.** For duplicate-free data the preprocessed frame (or the error) is the same for every order of the
input rows. -/
theorem C20_row_order_irrelevant [LinearOrder ι] (cg : ControlGroup) (a : ℤ) (df df' : List (Obs ι β))
    (h : df.Perm df') (hn : NoDuplicates df) : pipeline cg a df = pipeline cg a df' := by
  unfold pipeline
  have h3 := controlGroup_perm (cg := cg) (a := a) (earlyFilter_perm (a := a) (encode_perm h))
  have hb := makeBalanced_perm h3
  have hnd : NoDuplicates (makeBalanced (controlGroup cg a (earlyFilter a (encode df)))) := by
    rw [makeBalanced_eq_filter]
    apply NoDuplicates.filter
    apply noDup_controlGroup
    exact List.Pairwise.sublist (earlyFilter_sublist a _) (noDup_encode hn)
  unfold balance
  simp only [List.isEmpty_iff]
  by_cases he : makeBalanced (controlGroup cg a (earlyFilter a (encode df))) = []
  · have he' := he
    rw [he] at hb
    rw [if_pos he, if_pos hb.symm.eq_nil]
  · rw [if_neg he, if_neg]
    · simp only [Option.map_some, Option.some.injEq]
      exact sortTGI_eq_of_perm hb hnd
    · intro hc; rw [hc] at hb; exact he hb.eq_nil

example : exObs.Perm exObs.reverse ∧ exObs ≠ exObs.reverse ∧ NoDuplicates exObs :=
  ⟨(List.reverse_perm _).symm, by decide, by unfold NoDuplicates; decide⟩

end Verif.Prep
