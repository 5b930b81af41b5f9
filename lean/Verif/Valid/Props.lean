import Verif.Valid.Model
import Mathlib.Tactic.NormNum
import Mathlib.Data.List.Nodup

/-!
# What validation accepts (C69)
-/

set_option linter.unusedSectionVars false
set_option linter.unusedSimpArgs false

namespace Verif.Valid

/-! ## Specification, in terms of the rows of the data -/

/-- Column `c` takes one value within each unit. -/
def ConstantWithin (f : Frame) (id c : String) : Prop :=
  ∀ a ∈ f.rows, ∀ b ∈ f.rows, a id = b id → a c = b c

/-- No unit has two rows in the same period. -/
def OnePerPeriod (f : Frame) (id t : String) : Prop :=
  f.rows.Pairwise fun a b => ¬ (a id = b id ∧ a t = b t)

/-- No unit has two rows at all. -/
def AllDistinctUnits (f : Frame) (id : String) : Prop :=
  f.rows.Pairwise fun a b => a id ≠ b id

/-- No cell of a (numeric) column is negative. -/
def NoNegative (f : Frame) (c : String) : Prop := ∀ r ∈ f.rows, (r c).neg = false

/-! ## Lemmas -/

theorem dedup_length_le_one {α : Type} [DecidableEq α] (l : List α) :
    l.dedup.length ≤ 1 ↔ ∀ a ∈ l, ∀ b ∈ l, a = b := by
  constructor
  · intro h a ha b hb
    rw [← List.mem_dedup] at ha hb
    match hd : l.dedup, h with
    | [], _ => rw [hd] at ha; simp at ha
    | [x], _ =>
      rw [hd] at ha hb
      simp at ha hb
      rw [ha, hb]
    | x :: y :: t, h => simp at h
  · intro h
    match hd : l.dedup with
    | [] => simp
    | [x] => simp
    | x :: y :: t =>
      exfalso
      have hn := List.nodup_dedup l
      rw [hd] at hn
      have hx : x ∈ l := List.mem_dedup.1 (by rw [hd]; simp)
      have hy : y ∈ l := List.mem_dedup.1 (by rw [hd]; simp)
      have := h x hx y hy
      subst this
      simp at hn

theorem varies_false (f : Frame) (id c : String) : varies f id c = false ↔ ConstantWithin f id c := by
  unfold varies ConstantWithin within
  simp only [List.any_eq_false, List.mem_dedup, List.mem_map, decide_eq_true_eq, not_lt]
  constructor
  · intro h a ha b hb hab
    have := (dedup_length_le_one _).1 (h (a id) ⟨a, ha, rfl⟩)
    exact this (a c) (List.mem_map.2 ⟨a, by simp [ha], rfl⟩) (b c) (List.mem_map.2 ⟨b, by simp [hb, hab], rfl⟩)
  · rintro h u ⟨a, ha, rfl⟩
    rw [dedup_length_le_one]
    intro x hx y hy
    rw [List.mem_map] at hx hy
    obtain ⟨r, hr, rfl⟩ := hx
    obtain ⟨s, hs, rfl⟩ := hy
    simp at hr hs
    exact h r hr.1 s hs.1 (hr.2.trans hs.2.symm)

theorem hasDuplicates_false (f : Frame) (id t : String) :
    hasDuplicates f id t = false ↔ OnePerPeriod f id t := by
  unfold hasDuplicates OnePerPeriod List.Nodup
  simp [List.pairwise_map]

theorem maxObs_one (f : Frame) (id : String) :
    maxObs f id = some 1 ↔ f.rows ≠ [] ∧ AllDistinctUnits f id := by
  unfold maxObs AllDistinctUnits
  have hcount : ∀ u, (f.rows.filter fun r => r id = u).length = (f.rows.map fun r => r id).count u := by
    intro u
    rw [List.count, List.countP_map, List.countP_eq_length_filter]
    congr 1
  simp only [hcount]
  generalize hl : f.rows.map (fun r => r id) = l
  have hpw : (f.rows.Pairwise fun a b => a id ≠ b id) ↔ l.Nodup := by
    rw [← hl, List.Nodup, List.pairwise_map]
  have hne : f.rows ≠ [] ↔ l ≠ [] := by rw [← hl]; simp
  rw [hpw, hne, List.max?_eq_some_iff]
  constructor
  · rintro ⟨hm, hle⟩
    rw [List.mem_map] at hm
    obtain ⟨u, hu, _⟩ := hm
    refine ⟨by rintro rfl; simp at hu, ?_⟩
    rw [List.nodup_iff_count_le_one]
    intro v
    by_cases hv : v ∈ l
    · exact hle _ (List.mem_map.2 ⟨v, List.mem_dedup.2 hv, rfl⟩)
    · rw [List.count_eq_zero_of_not_mem hv]; omega
  · rintro ⟨h0, hn⟩
    constructor
    · obtain ⟨u, hu⟩ := List.exists_mem_of_ne_nil l h0
      exact List.mem_map.2 ⟨u, List.mem_dedup.2 hu, List.count_eq_one_of_mem hn hu⟩
    · intro k hk
      rw [List.mem_map] at hk
      obtain ⟨u, hu, rfl⟩ := hk
      exact List.nodup_iff_count_le_one.1 hn u

theorem foldlM_composite (vs : List Out) (acc : List Msg) :
    (vs.foldlM (fun acc v => do let e ← v; pure (acc ++ e)) acc : Out) = .ok []
      ↔ acc = [] ∧ ∀ v ∈ vs, v = .ok [] := by
  induction vs generalizing acc with
  | nil => simp [pure, Except.pure]
  | cons v vs ih =>
    rw [List.foldlM_cons]
    match v with
    | .error e => simp [bind, Except.bind]
    | .ok m =>
      simp only [bind, Except.bind, pure, Except.pure]
      have := ih (acc ++ m)
      simp only [bind, Except.bind, pure, Except.pure] at this
      rw [this]
      constructor
      · rintro ⟨h1, h2⟩
        rw [List.append_eq_nil_iff] at h1
        refine ⟨h1.1, ?_⟩
        intro w hw
        rcases List.mem_cons.1 hw with rfl | hw
        · rw [h1.2]
        · exact h2 w hw
      · rintro ⟨rfl, h2⟩
        refine ⟨?_, fun w hw => h2 w (by simp [hw])⟩
        have := h2 (.ok m) (by simp)
        simpa using this

theorem missingOf_nil (f : Frame) (l : List (String × String)) :
    missingOf f l = [] ↔ ∀ p ∈ l, p.2 ∈ f.cols := by
  simp [missingOf]

theorem notNumericOf_nil (f : Frame) (l : List (String × String)) :
    notNumericOf f l = [] ↔ ∀ p ∈ l, p.2 ∈ f.cols → f.numeric p.2 = true := by
  simp [notNumericOf]

theorem withCols_nil (f : Frame) (cs : List String) (k : List Msg) :
    withCols f cs k = .ok [] ↔ (∀ c ∈ cs, c ∈ f.cols) ∧ k = [] := by
  unfold withCols
  by_cases h : ∀ c ∈ cs, c ∈ f.cols
  · rw [if_pos h]
    exact ⟨fun e => ⟨h, by simpa using e⟩, fun e => by rw [e.2]⟩
  · rw [if_neg h]
    exact iff_of_false (by simp) (fun h' => h h'.1)

theorem withCols_ok {α : Type} (f : Frame) (cs : List String) (k : α) (h : ∀ c ∈ cs, c ∈ f.cols) :
    withCols f cs k = .ok k := by
  unfold withCols
  rw [if_pos h]

theorem period_nil (ts : List Cell) : periodErrors ts = .ok [] ↔ ts.length = 2 ∧ Cell.null ∉ ts := by
  unfold periodErrors sortRaises
  by_cases h1 : Cell.null ∈ ts
  · by_cases h2 : 1 < ts.length
    · simp [h1, h2]
    · have : ts.length ≠ 2 := by omega
      simp [h1, h2, this]
  · by_cases h2 : ts.length = 2 <;> simp [h1, h2]

theorem indicator_nil (gs : List Cell) : indicatorErrors gs = .ok [] ↔
    gs.length = 2 ∧ ∀ g ∈ gs, g = .num 0 ∨ g = .num 1 := by
  unfold indicatorErrors
  by_cases h : gs.length = 2 ∧ ∀ g ∈ gs, g = .num 0 ∨ g = .num 1
  · have hn : Cell.null ∉ gs := by
      intro hm
      rcases h.2 _ hm with h | h <;> exact Cell.noConfusion h
    have hs : sortRaises gs = false := by unfold sortRaises; simp [hn]
    rw [hs]
    simp only [Bool.false_eq_true, if_false]
    rw [if_neg (by rw [not_or, not_not, not_not]; exact h)]
    exact iff_of_true rfl h
  · refine iff_of_false ?_ h
    split
    · simp
    · rw [if_pos (by rw [← not_and_or]; exact h)]
      simp

theorem weight_nil (w : Option String) (f : Frame) :
    weightErrors w f = .ok [] ↔ ∀ c, w = some c → c ∈ f.cols → f.numeric c = true → NoNegative f c := by
  unfold weightErrors NoNegative
  rcases w with _ | w
  · simp
  · by_cases h : (decide (w ∈ f.cols) && f.numeric w && f.rows.any fun r => (r w).neg) = true
    · simp only [h, if_true]
      simp only [Bool.and_eq_true, decide_eq_true_eq, List.any_eq_true] at h
      obtain ⟨⟨h1, h2⟩, r, hr, hn⟩ := h
      simp only [Except.ok.injEq, reduceCtorEq, Option.some.injEq, false_iff, List.cons_ne_self]
      intro hc
      have := hc w rfl h1 h2 r hr
      rw [hn] at this
      exact Bool.noConfusion this
    · simp only [h]
      simp only [Bool.false_eq_true, if_false, true_iff]
      rintro c hc h1 h2 r hr
      cases hc
      by_contra hn
      apply h
      simp only [Bool.and_eq_true, decide_eq_true_eq, List.any_eq_true]
      exact ⟨⟨h1, h2⟩, r, hr, by simpa using hn⟩

theorem mismatch_nil (f : Frame) (i t : String) :
    panelMismatch f (some i) t true = .ok []
      ↔ i ∈ f.cols ∧ t ∈ f.cols ∧ (f.rows ≠ [] → ¬ AllDistinctUnits f i) := by
  unfold panelMismatch
  rw [withCols_nil]
  simp only [List.mem_cons, List.not_mem_nil, or_false, forall_eq_or_imp, forall_eq, Bool.true_and,
    ite_eq_right_iff, decide_eq_true_eq, reduceCtorEq, imp_false, maxObs_one, and_assoc]
  tauto

/-! ## The composite validator -/

/-- **C69 (composite).** Validation succeeds iff every validator ran and reported no error; and it
raises an exception iff some validator raises. -/
theorem C69_composite (vs : List Out) :
    (accepted (composite vs) ↔ ∀ v ∈ vs, accepted v) ∧
    ((∃ e, composite vs = .error e) ↔ ∃ v ∈ vs, ∃ e, v = .error e) := by
  constructor
  · unfold accepted composite
    rw [foldlM_composite]
    simp
  · unfold composite
    have : ∀ acc : List Msg, (∃ e, (vs.foldlM (fun acc v => do let e ← v; pure (acc ++ e)) acc : Out) = .error e)
        ↔ ∃ v ∈ vs, ∃ e, v = .error e := by
      induction vs with
      | nil => simp [pure, Except.pure]
      | cons v vs ih =>
        intro acc
        rw [List.foldlM_cons]
        match v with
        | .error e => simp [bind, Except.bind]
        | .ok m =>
          simp only [bind, Except.bind, pure, Except.pure]
          have := ih (acc ++ m)
          simp only [bind, Except.bind, pure, Except.pure] at this
          rw [this]
          simp
    exact this []

/-- **C69 (all errors are reported).** When no validator raises, the reported errors are exactly the
errors of the individual validators, in order. -/
theorem C69_composite_errors (ms : List (List Msg)) :
    composite (ms.map Except.ok) = .ok ms.flatten := by
  unfold composite
  have : ∀ acc : List Msg, ((ms.map Except.ok).foldlM (fun acc v => do let e ← v; pure (acc ++ e)) acc : Out)
      = .ok (acc ++ ms.flatten) := by
    induction ms with
    | nil => intro acc; simp [pure, Except.pure]
    | cons m ms ih =>
      intro acc
      rw [List.map_cons, List.foldlM_cons]
      simp only [bind, Except.bind, pure, Except.pure]
      have := ih (acc ++ m)
      simp only [bind, Except.bind, pure, Except.pure] at this
      rw [this]
      simp
  simpa using this []

example : composite [.ok [], .ok [.duplicates], .ok [.cohortVaries]] = .ok [.duplicates, .cohortVaries] := rfl

/-! ## `att_gt` / `cont_did` on panel data -/

/-- What a well-formed panel for `att_gt` (and, with `cont`, `cont_did`) is. -/
structure DidOk (c : DidCfg) (i : String) (f : Frame) : Prop where
  columns : ∀ n, n = c.yname ∨ n = c.tname ∨ n = c.gname ∨ n = i ∨ some n = c.weightsname ∨
    n ∈ c.clustervars ∨ n ∈ c.xvars ∨ (c.cont = true ∧ some n = c.dname) → n ∈ f.cols
  numeric : ∀ n, n = c.yname ∨ n = c.tname ∨ n = c.gname ∨ n = i ∨ (c.cont = true ∧ some n = c.dname) →
    f.numeric n = true
  unique : OnePerPeriod f i c.tname
  cohort : ConstantWithin f i c.gname
  panel : f.rows ≠ [] → ¬ AllDistinctUnits f i
  weights : ∀ w, c.weightsname = some w → f.numeric w = true → NoNegative f w
  oneCluster : (c.clustervars.filter fun v => v ≠ i).length ≤ 1
  cluster : ∀ v ∈ c.clustervars, v ≠ i → ConstantWithin f i v
  dose : ∀ d, c.cont = true → c.dname = some d → NoNegative f d
  pre : c.cont = true → 0 ≤ c.requiredPre

theorem argument_nil (c : DidCfg) : argumentErrors c = .ok [] ↔ (c.cont = true → 0 ≤ c.requiredPre) := by
  unfold argumentErrors
  by_cases h1 : c.cont = true <;> by_cases h2 : c.requiredPre < 0 <;> simp [h1, h2] <;> omega

theorem column_nil (c : DidCfg) (f : Frame) (i : String) (hp : c.panel = true) (hi : c.idname = some i) :
    columnErrors c f = .ok [] ↔
      (∀ n, n = c.yname ∨ n = c.tname ∨ n = c.gname ∨ n = i ∨ some n = c.weightsname ∨
        n ∈ c.clustervars ∨ n ∈ c.xvars ∨ (c.cont = true ∧ some n = c.dname) → n ∈ f.cols) ∧
      (∀ n, n = c.yname ∨ n = c.tname ∨ n = c.gname ∨ n = i ∨ (c.cont = true ∧ some n = c.dname) →
        f.numeric n = true) := by
  unfold columnErrors
  dsimp only
  simp only [Except.ok.injEq, hp, hi, if_true]
  have hdose : ∀ n, n ∈ (doseCol c).toList ↔ (c.cont = true ∧ some n = c.dname) := by
    intro n
    unfold doseCol
    by_cases hc : c.cont = true
    · simp [hc, eq_comm]
    · simp [hc]
  have hw : ∀ n, n ∈ c.weightsname.toList ↔ some n = c.weightsname := by
    intro n; simp [eq_comm]
  constructor
  · intro h
    split at h
    · rename_i he
      rw [List.isEmpty_iff] at he
      simp only [List.append_eq_nil_iff, missingOf_nil, notNumericOf_nil, List.mem_append, List.mem_cons,
        List.mem_map, List.not_mem_nil, or_false] at he h
      obtain ⟨⟨⟨h1, h2⟩, h3⟩, h4⟩ := he
      obtain ⟨⟨h5, h6⟩, h7⟩ := h
      have hcol : ∀ n, n = c.yname ∨ n = c.tname ∨ n = c.gname ∨ n = i ∨ some n = c.weightsname ∨
          n ∈ c.clustervars ∨ n ∈ c.xvars ∨ (c.cont = true ∧ some n = c.dname) → n ∈ f.cols := by
        rintro n (rfl | rfl | rfl | rfl | hn | hn | hn | hn)
        · exact h1 ("yname", c.yname) (by simp)
        · exact h1 ("tname", c.tname) (by simp)
        · exact h1 ("gname", c.gname) (by simp)
        · exact h1 ("idname", n) (by simp)
        · exact h2 ("weightsname", n) ⟨n, (hw n).2 hn, rfl⟩
        · exact h3 ("clustervars", n) ⟨n, hn, rfl⟩
        · exact h6 ("xformla", n) ⟨n, hn, rfl⟩
        · exact h4 ("dname", n) ⟨n, (hdose n).2 hn, rfl⟩
      refine ⟨hcol, ?_⟩
      rintro n (rfl | rfl | rfl | rfl | hn)
      · exact h5 ("yname", c.yname) (by simp) (hcol _ (by simp))
      · exact h5 ("tname", c.tname) (by simp) (hcol _ (by simp))
      · exact h5 ("gname", c.gname) (by simp) (hcol _ (by simp))
      · exact h5 ("idname", n) (by simp) (hcol _ (by simp))
      · exact h7 ("dname", n) ⟨n, (hdose n).2 hn, rfl⟩ (hcol _ (by simp [hn]))
    · rename_i he
      exact absurd (by rw [h]; rfl) he
  · rintro ⟨h1, h2⟩
    rw [if_pos]
    · simp only [List.append_eq_nil_iff, missingOf_nil, notNumericOf_nil]
      refine ⟨⟨?_, ?_⟩, ?_⟩
      · intro p hp' _
        simp at hp'
        rcases hp' with rfl | rfl | rfl | rfl <;> exact h2 _ (by simp)
      · intro p hp'
        simp at hp'
        obtain ⟨n, hn, rfl⟩ := hp'
        exact h1 n (by simp [hn])
      · intro p hp' _
        rw [List.mem_map] at hp'
        obtain ⟨n, hn, rfl⟩ := hp'
        exact h2 n (by simp [(hdose n).1 hn])
    · rw [List.isEmpty_iff]
      simp only [List.append_eq_nil_iff, missingOf_nil]
      refine ⟨⟨⟨?_, ?_⟩, ?_⟩, ?_⟩
      · intro p hp'
        simp at hp'
        rcases hp' with rfl | rfl | rfl | rfl <;> exact h1 _ (by simp)
      · intro p hp'
        rw [List.mem_map] at hp'
        obtain ⟨n, hn, rfl⟩ := hp'
        exact h1 n (by simp [(hw n).1 hn])
      · intro p hp'
        rw [List.mem_map] at hp'
        obtain ⟨n, hn, rfl⟩ := hp'
        exact h1 n (by simp [hn])
      · intro p hp'
        rw [List.mem_map] at hp'
        obtain ⟨n, hn, rfl⟩ := hp'
        exact h1 n (by simp [(hdose n).1 hn])

theorem structure_nil (c : DidCfg) (f : Frame) (i : String) (hp : c.panel = true) (hi : c.idname = some i) :
    structureErrors c f = .ok [] ↔ (i ∈ f.cols ∧ c.tname ∈ f.cols ∧ (f.rows ≠ [] → ¬ AllDistinctUnits f i)) ∧
      OnePerPeriod f i c.tname := by
  unfold structureErrors
  rw [hp, hi]
  rw [← hasDuplicates_false, ← mismatch_nil]
  by_cases hc : i ∈ f.cols ∧ c.tname ∈ f.cols
  · have hw : ∀ {α : Type} (k : α), withCols f [i, c.tname] k = .ok k := by
      intro α k; unfold withCols; rw [if_pos]; simpa using hc
    unfold panelMismatch
    simp only [hw, bind, Except.bind, pure, Except.pure, Except.ok.injEq, List.append_eq_nil_iff]
    apply and_congr_right
    intro _
    cases hasDuplicates f i c.tname <;> simp
  · have hw : ∀ {α : Type} (k : α), withCols f [i, c.tname] k = .error .columnNotFound := by
      intro α k; unfold withCols; rw [if_neg]; simpa using hc
    unfold panelMismatch
    simp [hw, bind, Except.bind]

theorem cluster_nil (c : DidCfg) (f : Frame) (i : String) (hp : c.panel = true) (hi : c.idname = some i)
    (hcols : i ∈ f.cols ∧ ∀ v ∈ c.clustervars, v ∈ f.cols) :
    clusterErrors c f = .ok [] ↔ (c.clustervars.filter fun v => v ≠ i).length ≤ 1 ∧
      ∀ v ∈ c.clustervars, v ≠ i → ConstantWithin f i v := by
  unfold clusterErrors
  dsimp only
  have hvs : (c.clustervars.filter fun v => decide (some v ≠ c.idname)) = c.clustervars.filter fun v => v ≠ i := by
    apply List.filter_congr
    intro v _
    rw [hi]
    simp
  rw [hvs, hp, hi]
  by_cases h1 : 1 < (c.clustervars.filter fun v => decide (v ≠ i)).length
  · rw [if_pos h1]
    simp
    intro h
    simp at h1
    omega
  · rw [if_neg h1]
    dsimp only
    rw [withCols_nil, List.map_eq_nil_iff, List.filter_eq_nil_iff]
    simp only [Bool.not_eq_true, varies_false, List.mem_filter, decide_eq_true_eq, and_imp]
    constructor
    · rintro ⟨_, h⟩
      exact ⟨by omega, h⟩
    · rintro ⟨_, h⟩
      refine ⟨?_, h⟩
      intro x hx
      split at hx
      · simp at hx
      · rcases List.mem_cons.1 hx with rfl | hx
        · exact hcols.1
        · exact hcols.2 x (List.mem_of_mem_filter hx)

theorem dose_nil (c : DidCfg) (f : Frame) (hc : c.cont = true) (hcols : ∀ d, c.dname = some d → d ∈ f.cols) :
    doseErrors c f = .ok [] ↔ ∀ d, c.dname = some d → NoNegative f d := by
  unfold doseErrors doseCol NoNegative
  rw [hc]
  simp only [if_true]
  rcases hd : c.dname with _ | d
  · simp
  · simp only [hcols d hd, decide_true, Bool.true_and, Option.some.injEq, forall_eq', Except.ok.injEq]
    constructor
    · intro h r hr
      by_contra hn
      rw [if_pos (List.any_eq_true.2 ⟨r, hr, by simpa using hn⟩)] at h
      simp at h
    · intro h
      rw [if_neg]
      rw [List.any_eq_true]
      rintro ⟨r, hr, hn⟩
      rw [h r hr] at hn
      exact Bool.noConfusion hn

/-- **C69 (`att_gt`, `cont_did`).** For panel data with a unit column, the pipeline accepts the input
if and only if the data are a well-formed panel: every named column exists, the key columns are
numeric, no unit appears twice in a period, some unit appears in several periods, the cohort and the
cluster are constant within unit, and no numeric weight (or dose) is negative. -/
theorem C69_did_panel (c : DidCfg) (f : Frame) (i : String) (hp : c.panel = true) (hi : c.idname = some i) :
    accepted (didValidate c f) ↔ DidOk c i f := by
  have hcomp : accepted (didValidate c f) ↔
      argumentErrors c = .ok [] ∧ columnErrors c f = .ok [] ∧ weightErrors c.weightsname f = .ok [] ∧
      treatmentErrors c f = .ok [] ∧ structureErrors c f = .ok [] ∧ clusterErrors c f = .ok [] ∧
      (c.cont = true → doseErrors c f = .ok []) := by
    unfold didValidate
    rw [(C69_composite _).1]
    unfold accepted
    by_cases hc : c.cont = true
    · simp [hc, and_assoc]
    · simp [hc, and_assoc]
  rw [hcomp, argument_nil, column_nil c f i hp hi, weight_nil, structure_nil c f i hp hi]
  have htr : treatmentErrors c f = .ok [] ↔ (i ∈ f.cols ∧ c.gname ∈ f.cols ∧ c.tname ∈ f.cols) ∧
      ConstantWithin f i c.gname := by
    unfold treatmentErrors
    rw [hp, hi]
    dsimp only
    rw [withCols_nil, ← varies_false]
    simp
  rw [htr]
  constructor
  · rintro ⟨h1, ⟨h2, h3⟩, h4, h5, h6, h7, h8⟩
    have hcl : i ∈ f.cols ∧ ∀ v ∈ c.clustervars, v ∈ f.cols :=
      ⟨h2 i (by simp), fun v hv => h2 v (by simp [hv])⟩
    rw [cluster_nil c f i hp hi hcl] at h7
    exact {
      columns := h2
      numeric := h3
      unique := h6.2
      cohort := h5.2
      panel := h6.1.2.2
      weights := fun w hw hn => h4 w hw (h2 w (by simp [hw])) hn
      oneCluster := h7.1
      cluster := h7.2
      dose := fun d hc hd => (dose_nil c f hc (fun d hd => h2 d (by simp [hc, hd]))).1 (h8 hc) d hd
      pre := h1 }
  · rintro ⟨h1, h2, h3, h4, h5, h6, h7, h8, h9, h10⟩
    have hcl : i ∈ f.cols ∧ ∀ v ∈ c.clustervars, v ∈ f.cols :=
      ⟨h1 i (by simp), fun v hv => h1 v (by simp [hv])⟩
    refine ⟨h10, ⟨h1, h2⟩, fun w hw _ hn => h6 w hw hn,
      ⟨⟨h1 i (by simp), h1 _ (by simp), h1 _ (by simp)⟩, h4⟩,
      ⟨⟨h1 i (by simp), h1 _ (by simp), h5⟩, h3⟩, (cluster_nil c f i hp hi hcl).2 ⟨h7, h8⟩, ?_⟩
    intro hc
    exact (dose_nil c f hc (fun d hd => h1 d (by simp [hc, hd]))).2 (fun d hd => h9 d hc hd)

/-- A small panel: columns `id, t, g, y, w`; two units, two periods. -/
def exFrame (w : Cell) : Frame where
  cols := ["id", "t", "g", "y", "w"]
  numeric := fun _ => true
  rows := [(1, 1, 0), (1, 2, 0), (2, 1, 2), (2, 2, 2)].map fun p c =>
    if c = "id" then .num p.1 else if c = "t" then .num p.2.1 else if c = "g" then .num p.2.2
    else if c = "w" then w else .num 5

/-- `att_gt(yname="y", tname="t", gname="g", idname="id", weightsname="w")`. -/
def exCfg : DidCfg where
  yname := "y"
  tname := "t"
  gname := "g"
  idname := some "id"
  panel := true
  weightsname := some "w"
  clustervars := []
  xvars := []
  cont := false
  dname := none
  requiredPre := 0

example : accepted (didValidate exCfg (exFrame (.num 1))) := by decide +kernel
example : ¬ accepted (didValidate exCfg (exFrame (.num (-1)))) := by decide +kernel

/-- **C69 (NaN weights, violated).** "Weights are non-negative numbers" is not what validation
ensures: a column of NaN weights passes. -/
theorem C69_nan_weights_violated : accepted (didValidate exCfg (exFrame .nan)) ∧
    ∀ r ∈ (exFrame .nan).rows, r "w" = .nan := by
  constructor
  · decide +kernel
  · intro r hr
    simp [exFrame] at hr
    rcases hr with rfl | rfl | rfl | rfl <;> rfl

/-- **C69 (missing key column, violated).** When the cohort or unit column is missing, the collected
report "… must be a column in the dataset" is never shown: the next validator reads the column and
raises a different exception. -/
theorem C69_missing_column_violated (c : DidCfg) (f : Frame) (i : String) (hp : c.panel = true)
    (hi : c.idname = some i) (hm : i ∉ f.cols ∨ c.gname ∉ f.cols ∨ c.tname ∉ f.cols) :
    didValidate c f = .error .columnNotFound := by
  have htr : treatmentErrors c f = .error .columnNotFound := by
    unfold treatmentErrors
    rw [hp, hi]
    dsimp only
    unfold withCols
    rw [if_neg]
    simp only [List.mem_cons, List.not_mem_nil, or_false, forall_eq_or_imp, forall_eq]
    tauto
  unfold didValidate composite
  have hcol : ∃ m, columnErrors c f = .ok m := ⟨_, rfl⟩
  obtain ⟨m, hm⟩ := hcol
  have hwt : ∃ m, weightErrors c.weightsname f = .ok m := by
    unfold weightErrors
    rcases c.weightsname with _ | w
    · exact ⟨_, rfl⟩
    · exact ⟨_, rfl⟩
  obtain ⟨m', hm'⟩ := hwt
  rw [hm, htr, hm']
  simp [argumentErrors, List.foldlM_cons, bind, Except.bind, pure, Except.pure]

example : didValidate exCfg { exFrame (.num 1) with cols := ["id", "t", "y", "w"] } = .error .columnNotFound :=
  C69_missing_column_violated exCfg _ "id" rfl rfl (Or.inr (Or.inl (by decide)))

/-- … while a missing outcome column alone is reported as intended. -/
example : didValidate exCfg { exFrame (.num 1) with cols := ["id", "t", "g", "w"] }
    = .ok [.missing "yname" "y"] := by decide +kernel

/-! ## Two-period panels -/

/-- What the two-period pipeline (`drdid`, `ordid`, `ipwdid`) accepts as a panel.  Uniqueness of
(unit, period) is *not* among the conditions; see C95. -/
structure TwoOk (c : TwoCfg) (i : String) (f : Frame) : Prop where
  columns : ∀ n, n = c.yname ∨ n = c.tname ∨ n = c.treat ∨ n = i ∨ some n = c.weightsname → n ∈ f.cols
  numeric : ∀ n, n = c.yname ∨ n = c.tname ∨ n = c.treat ∨ n = i → f.numeric n = true
  periods : ((f.rows.map fun r => r c.tname).dedup).length = 2 ∧ ∀ r ∈ f.rows, r c.tname ≠ .null
  binary : (∀ r ∈ f.rows, r c.treat = .num 0 ∨ r c.treat = .num 1) ∧
    (∃ r ∈ f.rows, r c.treat = .num 0) ∧ ∃ r ∈ f.rows, r c.treat = .num 1
  treat : ConstantWithin f i c.treat
  panel : ¬ AllDistinctUnits f i
  weights : ∀ w, c.weightsname = some w → f.numeric w = true → NoNegative f w

theorem twoColumn_nil (c : TwoCfg) (f : Frame) (i : String) (hp : c.panel = true) (hi : c.idname = some i) :
    twoColumnErrors c f = .ok [] ↔
      (∀ n, n = c.yname ∨ n = c.tname ∨ n = c.treat ∨ n = i ∨ some n = c.weightsname → n ∈ f.cols) ∧
      (∀ n, n = c.yname ∨ n = c.tname ∨ n = c.treat ∨ n = i → f.numeric n = true) := by
  unfold twoColumnErrors
  dsimp only
  simp only [Except.ok.injEq, hp, hi, if_true]
  have hw : ∀ n, n ∈ c.weightsname.toList ↔ some n = c.weightsname := by
    intro n; simp [eq_comm]
  constructor
  · intro h
    split at h
    · rename_i he
      rw [List.isEmpty_iff] at he
      simp only [List.append_eq_nil_iff, missingOf_nil, notNumericOf_nil, List.mem_append, List.mem_cons,
        List.mem_map, List.not_mem_nil, or_false] at he h
      obtain ⟨h1, h2⟩ := he
      have hcol : ∀ n, n = c.yname ∨ n = c.tname ∨ n = c.treat ∨ n = i ∨ some n = c.weightsname →
          n ∈ f.cols := by
        rintro n (rfl | rfl | rfl | rfl | hn)
        · exact h1 ("yname", c.yname) (by simp)
        · exact h1 ("tname", c.tname) (by simp)
        · exact h1 ("treat_col", c.treat) (by simp)
        · exact h1 ("idname", n) (by simp)
        · exact h2 ("weightsname", n) ⟨n, (hw n).2 hn, rfl⟩
      refine ⟨hcol, ?_⟩
      rintro n (rfl | rfl | rfl | rfl)
      · exact h ("yname", c.yname) (by simp) (hcol _ (by simp))
      · exact h ("tname", c.tname) (by simp) (hcol _ (by simp))
      · exact h ("treat_col", c.treat) (by simp) (hcol _ (by simp))
      · exact h ("idname", n) (by simp) (hcol _ (by simp))
    · rename_i he
      exact absurd (by rw [h]; rfl) he
  · rintro ⟨h1, h2⟩
    rw [if_pos]
    · simp only [notNumericOf_nil]
      intro p hp' _
      simp at hp'
      rcases hp' with rfl | rfl | rfl | rfl <;> exact h2 _ (by simp)
    · rw [List.isEmpty_iff]
      simp only [List.append_eq_nil_iff, missingOf_nil]
      refine ⟨?_, ?_⟩
      · intro p hp'
        simp at hp'
        rcases hp' with rfl | rfl | rfl | rfl <;> exact h1 _ (by simp)
      · intro p hp'
        rw [List.mem_map] at hp'
        obtain ⟨n, hn, rfl⟩ := hp'
        exact h1 n (by simp [(hw n).1 hn])

theorem binary_iff (l : List Cell) :
    (l.dedup.length = 2 ∧ ∀ g ∈ l.dedup, g = .num 0 ∨ g = .num 1) ↔
      (∀ g ∈ l, g = .num 0 ∨ g = .num 1) ∧ Cell.num 0 ∈ l ∧ Cell.num 1 ∈ l := by
  have h01 : (Cell.num 0 : Cell) ≠ .num 1 := by decide
  constructor
  · rintro ⟨hl, hb⟩
    have hb' : ∀ g ∈ l, g = .num 0 ∨ g = .num 1 := fun g hg => hb g (List.mem_dedup.2 hg)
    refine ⟨hb', ?_⟩
    have hn := List.nodup_dedup l
    match hd : l.dedup, hl with
    | [x, y], _ =>
      rw [hd] at hn
      have hx := hb x (by rw [hd]; simp)
      have hy := hb y (by rw [hd]; simp)
      have hxy : x ≠ y := by simpa using hn
      have mx : x ∈ l := List.mem_dedup.1 (by rw [hd]; simp)
      have my : y ∈ l := List.mem_dedup.1 (by rw [hd]; simp)
      rcases hx with rfl | rfl <;> rcases hy with rfl | rfl
      · exact absurd rfl hxy
      · exact ⟨mx, my⟩
      · exact ⟨my, mx⟩
      · exact absurd rfl hxy
  · rintro ⟨hb, h0, h1⟩
    refine ⟨?_, fun g hg => hb g (List.mem_dedup.1 hg)⟩
    have : l.dedup.Perm [.num 0, .num 1] := by
      rw [List.perm_ext_iff_of_nodup (List.nodup_dedup l) (by simp)]
      intro g
      rw [List.mem_dedup]
      constructor
      · intro hg; simpa using hb g hg
      · intro hg
        simp at hg
        rcases hg with rfl | rfl
        · exact h0
        · exact h1
    simpa using this.length_eq

/-- **C69 (two-period panels).** Exact acceptance condition of the two-period estimators. -/
theorem C69_two_period (c : TwoCfg) (f : Frame) (i : String) (hp : c.panel = true) (hi : c.idname = some i) :
    accepted (twoValidate c f) ↔ TwoOk c i f := by
  unfold twoValidate
  rw [(C69_composite _).1]
  unfold accepted
  simp only [List.mem_cons, List.not_mem_nil, or_false, forall_eq_or_imp, forall_eq, true_and]
  rw [twoColumn_nil c f i hp hi, weight_nil]
  have hnull : ∀ c' : String, (Cell.null ∈ (f.rows.map fun r => r c').dedup) ↔ ∃ r ∈ f.rows, r c' = .null := by
    intro c'; rw [List.mem_dedup, List.mem_map]
  constructor
  · rintro ⟨⟨h1, h2⟩, h3, h4, h5⟩
    have ht : c.tname ∈ f.cols := h1 _ (by simp)
    have hg : c.treat ∈ f.cols := h1 _ (by simp)
    have hic : i ∈ f.cols := h1 _ (by simp)
    unfold twoDataErrors at h3
    rw [withCols_ok f [c.tname] _ (by simpa using ht), withCols_ok f [c.treat] _ (by simpa using hg)] at h3
    simp only [bind, Except.bind, pure, Except.pure] at h3
    have h3' : periodErrors ((f.rows.map fun r => r c.tname).dedup) = .ok [] ∧
        indicatorErrors ((f.rows.map fun r => r c.treat).dedup) = .ok [] := by
      revert h3
      cases periodErrors ((f.rows.map fun r => r c.tname).dedup) with
      | error e => simp
      | ok m =>
        cases indicatorErrors ((f.rows.map fun r => r c.treat).dedup) with
        | error e => simp
        | ok m' => simp
    rw [period_nil, indicator_nil] at h3'
    obtain ⟨⟨h3c, h3n⟩, h3b⟩ := h3'
    have h3d := (binary_iff _).1 h3b
    unfold twoPanelErrors at h4
    rw [hp, hi] at h4
    have h4' : panelMismatch f (some i) c.tname true = .ok [] ∧ varies f i c.treat = false := by
      have w3 : ∀ {α : Type} (k : α), withCols f [i, c.treat] k = .ok k := by
        intro α k; unfold withCols; rw [if_pos]; simp [hic, hg]
      have w4 : ∀ {α : Type} (k : α), withCols f [i, c.tname] k = .ok k := by
        intro α k; unfold withCols; rw [if_pos]; simp [hic, ht]
      unfold panelMismatch at h4 ⊢
      simp only [w3, w4, bind, Except.bind, pure, Except.pure, Except.ok.injEq, List.append_eq_nil_iff] at h4 ⊢
      refine ⟨h4.1, ?_⟩
      have := h4.2
      revert this
      cases varies f i c.treat <;> simp
    have hne : f.rows ≠ [] := by
      intro h; rw [h] at h3c; simp at h3c
    exact {
      columns := h1
      numeric := h2
      periods := by
        refine ⟨h3c, ?_⟩
        intro r hr hn
        exact h3n ((hnull _).2 ⟨r, hr, hn⟩)
      binary := by
        obtain ⟨a, b, d⟩ := h3d
        rw [List.mem_map] at b d
        refine ⟨fun r hr => a _ (List.mem_map.2 ⟨r, hr, rfl⟩), b, d⟩
      treat := (varies_false _ _ _).1 h4'.2
      panel := ((mismatch_nil f i c.tname).1 h4'.1).2.2 hne
      weights := fun w hw hn => h5 w hw (h1 w (by simp [hw])) hn }
  · rintro ⟨h1, h2, h3, h4, h5, h6, h7⟩
    have ht : c.tname ∈ f.cols := h1 _ (by simp)
    have hg : c.treat ∈ f.cols := h1 _ (by simp)
    have hic : i ∈ f.cols := h1 _ (by simp)
    refine ⟨⟨h1, h2⟩, ?_, ?_, fun w hw _ hn => h7 w hw hn⟩
    · unfold twoDataErrors
      rw [withCols_ok f [c.tname] _ (by simpa using ht), withCols_ok f [c.treat] _ (by simpa using hg)]
      have hb := (binary_iff (f.rows.map fun r => r c.treat)).2
        ⟨by intro g hg'; rw [List.mem_map] at hg'; obtain ⟨r, hr, rfl⟩ := hg'; exact h4.1 r hr,
          by rw [List.mem_map]; exact h4.2.1, by rw [List.mem_map]; exact h4.2.2⟩
      have e1 : periodErrors ((f.rows.map fun r => r c.tname).dedup) = .ok [] := by
        rw [period_nil]
        refine ⟨h3.1, ?_⟩
        rw [hnull]
        rintro ⟨r, hr, hn⟩
        exact h3.2 r hr hn
      have e2 := (indicator_nil _).2 hb
      simp only [bind, Except.bind, pure, Except.pure, e1, e2]
      rfl
    · unfold twoPanelErrors
      rw [hp, hi]
      have := (mismatch_nil f i c.tname).2 ⟨hic, ht, fun _ => h6⟩
      rw [this]
      have w3 : ∀ {α : Type} (k : α), withCols f [i, c.treat] k = .ok k := by
        intro α k; unfold withCols; rw [if_pos]; simp [hic, hg]
      simp only [w3, bind, Except.bind, pure, Except.pure]
      rw [if_neg]
      · rfl
      · rw [Bool.not_eq_true, varies_false]; exact h5

/-- `drdid(yname="y", tname="t", treatname="d", idname="id")`. -/
def twoCfg : TwoCfg := ⟨"y", "t", "d", some "id", true, none⟩

/-- A frame from `(id, t, d)` triples with columns `id, t, d, y`. -/
def twoFrame (l : List (ℚ × ℚ × ℚ)) : Frame where
  cols := ["id", "t", "d", "y"]
  numeric := fun _ => true
  rows := l.map fun p c => if c = "id" then .num p.1 else if c = "t" then .num p.2.1
    else if c = "d" then .num p.2.2 else .num 5

example : accepted (twoValidate twoCfg (twoFrame [(1, 1, 0), (1, 2, 0), (2, 1, 1), (2, 2, 1)])) := by
  decide +kernel

/-! ## Triple differences -/

/-- What the two-period triple-difference pipeline accepts. -/
structure DddOk (c : DddCfg) (f : Frame) : Prop where
  columns : ∀ n, n = c.yname ∨ n = c.tname ∨ n = c.idname ∨ n = c.gname ∨ n = c.pname ∨ some n = c.cluster ∨
    some n = c.weightsname ∨ n ∈ c.xvars → n ∈ f.cols
  numeric : ∀ n, n = c.yname ∨ n = c.tname ∨ n = c.idname ∨ n = c.gname → f.numeric n = true
  periods : ((f.rows.map fun r => r c.tname).dedup).length = 2
  groups : ((f.rows.map fun r => r c.gname).dedup).length = 2
  zero : (∃ r ∈ f.rows, r c.gname = .num 0) ∧ NoNegative f c.gname
  cohort : ConstantWithin f c.idname c.gname
  partition : ConstantWithin f c.idname c.pname
  panel : ¬ AllDistinctUnits f c.idname
  weights : ∀ w, c.weightsname = some w → f.numeric w = true → NoNegative f w

theorem dddColumn_nil (c : DddCfg) (f : Frame) :
    dddColumnErrors c f = .ok [] ↔
      (∀ n, n = c.yname ∨ n = c.tname ∨ n = c.idname ∨ n = c.gname ∨ n = c.pname ∨ some n = c.cluster ∨
        some n = c.weightsname ∨ n ∈ c.xvars → n ∈ f.cols) ∧
      (∀ n, n = c.yname ∨ n = c.tname ∨ n = c.idname ∨ n = c.gname → f.numeric n = true) := by
  unfold dddColumnErrors
  dsimp only
  simp only [Except.ok.injEq]
  have hw : ∀ (o : Option String) n, n ∈ o.toList ↔ some n = o := by
    intro o n; simp [eq_comm]
  constructor
  · intro h
    split at h
    · rename_i he
      rw [List.isEmpty_iff] at he
      simp only [List.append_eq_nil_iff, missingOf_nil, notNumericOf_nil, List.mem_append, List.mem_cons,
        List.mem_map, List.not_mem_nil, or_false] at he h
      obtain ⟨⟨⟨h1, h2⟩, h3⟩, h4⟩ := he
      have hcol : ∀ n, n = c.yname ∨ n = c.tname ∨ n = c.idname ∨ n = c.gname ∨ n = c.pname ∨
          some n = c.cluster ∨ some n = c.weightsname ∨ n ∈ c.xvars → n ∈ f.cols := by
        rintro n (rfl | rfl | rfl | rfl | rfl | hn | hn | hn)
        · exact h1 ("yname", c.yname) (by simp)
        · exact h1 ("tname", c.tname) (by simp)
        · exact h1 ("idname", c.idname) (by simp)
        · exact h1 ("gname", c.gname) (by simp)
        · exact h1 ("pname", c.pname) (by simp)
        · exact h2 ("cluster", n) ⟨n, (hw _ n).2 hn, rfl⟩
        · exact h3 ("weightsname", n) ⟨n, (hw _ n).2 hn, rfl⟩
        · exact h4 ("xformla", n) ⟨n, hn, rfl⟩
      refine ⟨hcol, ?_⟩
      rintro n (rfl | rfl | rfl | rfl)
      · exact h ("yname", c.yname) (by simp) (hcol _ (by simp))
      · exact h ("tname", c.tname) (by simp) (hcol _ (by simp))
      · exact h ("idname", c.idname) (by simp) (hcol _ (by simp))
      · exact h ("gname", c.gname) (by simp) (hcol _ (by simp))
    · rename_i he
      exact absurd (by rw [h]; rfl) he
  · rintro ⟨h1, h2⟩
    rw [if_pos]
    · simp only [notNumericOf_nil]
      intro p hp' _
      simp at hp'
      rcases hp' with rfl | rfl | rfl | rfl <;> exact h2 _ (by simp)
    · rw [List.isEmpty_iff]
      simp only [List.append_eq_nil_iff, missingOf_nil]
      refine ⟨⟨⟨?_, ?_⟩, ?_⟩, ?_⟩
      · intro p hp'
        simp at hp'
        rcases hp' with rfl | rfl | rfl | rfl | rfl <;> exact h1 _ (by simp)
      all_goals
        intro p hp'
        rw [List.mem_map] at hp'
        obtain ⟨n, hn, rfl⟩ := hp'
      · exact h1 n (by simp [(hw _ n).1 hn])
      · exact h1 n (by simp [(hw _ n).1 hn])
      · exact h1 n (by simp [hn])

/-- **C69 (triple differences).** Exact acceptance condition of the two-period triple difference. -/
theorem C69_ddd (c : DddCfg) (f : Frame) : accepted (dddValidate c f) ↔ DddOk c f := by
  unfold dddValidate
  rw [(C69_composite _).1]
  unfold accepted
  simp only [List.mem_cons, List.not_mem_nil, or_false, forall_eq_or_imp, forall_eq, true_and]
  rw [dddColumn_nil, weight_nil, mismatch_nil]
  unfold dddInvarianceErrors
  rw [withCols_nil, List.append_eq_nil_iff]
  have hv : ∀ c' m, ((if varies f c.idname c' then [m] else []) : List Msg) = [] ↔ ConstantWithin f c.idname c' := by
    intro c' m
    rw [← varies_false]
    cases varies f c.idname c' <;> simp
  rw [hv, hv]
  have hdata : c.tname ∈ f.cols → c.gname ∈ f.cols → (dddDataErrors c f = .ok [] ↔
      ((f.rows.map fun r => r c.tname).dedup).length = 2 ∧ ((f.rows.map fun r => r c.gname).dedup).length = 2 ∧
      (∃ r ∈ f.rows, r c.gname = .num 0) ∧ NoNegative f c.gname) := by
    intro ht hg
    unfold dddDataErrors
    rw [withCols_ok f [c.tname] _ (by simpa using ht), withCols_ok f [c.gname] _ (by simpa using hg)]
    simp only [bind, Except.bind, pure, Except.pure, Except.ok.injEq, List.append_eq_nil_iff]
    have hz : (Cell.num 0 ∈ (f.rows.map fun r => r c.gname).dedup ∧
        ∀ g ∈ (f.rows.map fun r => r c.gname).dedup, g.neg = false) ↔
        (∃ r ∈ f.rows, r c.gname = .num 0) ∧ NoNegative f c.gname := by
      unfold NoNegative
      simp only [List.mem_dedup, List.mem_map, forall_exists_index, and_imp, forall_apply_eq_imp_iff₂]
    rw [← hz]
    clear hz
    by_cases a : ((f.rows.map fun r => r c.tname).dedup).length = 2
    · by_cases b : ((f.rows.map fun r => r c.gname).dedup).length = 2
      · by_cases d : (Cell.num 0 ∈ (f.rows.map fun r => r c.gname).dedup ∧
          ∀ g ∈ (f.rows.map fun r => r c.gname).dedup, g.neg = false)
        · simp only [a, b, d, ne_eq, not_true_eq_false, if_false, true_and, and_self]
          simp
        · simp only [a, b, d, ne_eq, not_true_eq_false, if_false, not_false_eq_true, if_true, true_and,
            List.cons_ne_nil]
      · simp [a, b]
    · simp [a]
  constructor
  · rintro ⟨⟨h1, h2⟩, h3, h4, h5, h6⟩
    have ht : c.tname ∈ f.cols := h1 _ (by simp)
    have hg : c.gname ∈ f.cols := h1 _ (by simp)
    rw [hdata ht hg] at h5
    have hne : f.rows ≠ [] := by
      intro h
      have := h5.1
      rw [h] at this; simp at this
    exact {
      columns := h1
      numeric := h2
      periods := h5.1
      groups := h5.2.1
      zero := h5.2.2
      cohort := h4.2.2
      partition := h4.2.1
      panel := h3.2.2 hne
      weights := fun w hw hn => h6 w hw (h1 w (by simp [hw])) hn }
  · rintro ⟨h1, h2, h3, h4, h5, h6, h7, h8, h9⟩
    have ht : c.tname ∈ f.cols := h1 _ (by simp)
    have hg : c.gname ∈ f.cols := h1 _ (by simp)
    refine ⟨⟨h1, h2⟩, ⟨h1 _ (by simp), ht, fun _ => h8⟩, ⟨?_, h7, h6⟩, (hdata ht hg).2 ⟨h3, h4, h5⟩,
      fun w hw _ hn => h9 w hw hn⟩
    intro n hn
    simp at hn
    rcases hn with rfl | rfl | rfl <;> exact h1 _ (by simp)

/-- `ddd(yname="y", tname="t", idname="id", gname="g", pname="p")`. -/
def dddCfg : DddCfg := ⟨"y", "t", "id", "g", "p", [], none, none⟩

/-- A frame from `(id, t, g, p)` with columns `id, t, g, p, y`. -/
def dddFrame (l : List (ℚ × ℚ × ℚ × ℚ)) : Frame where
  cols := ["id", "t", "g", "p", "y"]
  numeric := fun _ => true
  rows := l.map fun q c => if c = "id" then .num q.1 else if c = "t" then .num q.2.1
    else if c = "g" then .num q.2.2.1 else if c = "p" then .num q.2.2.2 else .num 5

/-- **C69 (uniqueness, violated for triple differences and two-period estimators).** These pipelines
accept data in which a unit is observed twice in the same period. -/
theorem C69_duplicates_violated :
    (accepted (dddValidate dddCfg (dddFrame [(1, 1, 0, 1), (1, 1, 0, 1), (2, 2, 2, 1), (2, 2, 2, 1)])) ∧
      ¬ OnePerPeriod (dddFrame [(1, 1, 0, 1), (1, 1, 0, 1), (2, 2, 2, 1), (2, 2, 2, 1)]) "id" "t") ∧
    (accepted (twoValidate twoCfg (twoFrame [(1, 1, 0), (1, 1, 0), (2, 2, 1), (2, 2, 1)])) ∧
      ¬ OnePerPeriod (twoFrame [(1, 1, 0), (1, 1, 0), (2, 2, 1), (2, 2, 1)]) "id" "t") := by
  refine ⟨⟨by decide +kernel, ?_⟩, ⟨by decide +kernel, ?_⟩⟩
  · rw [← hasDuplicates_false]; decide +kernel
  · rw [← hasDuplicates_false]; decide +kernel

/-! ## `did_multiplegt` -/

/-- What `did_multiplegt` accepts. -/
structure InterOk (c : InterCfg) (f : Frame) : Prop where
  columns : ∀ n, n = c.yname ∨ n = c.tname ∨ n = c.gname ∨ n = c.dname ∨ some n = c.weightsname ∨
    some n = c.cluster ∨ n ∈ c.xvars → n ∈ f.cols
  unique : OnePerPeriod f c.gname c.tname
  switch : ¬ ConstantWithin f c.gname c.dname
  weights : ∀ w, c.weightsname = some w → f.numeric w = true → NoNegative f w

/-- **C69 (`did_multiplegt`).** Exact acceptance condition. -/
theorem C69_inter (c : InterCfg) (f : Frame) : accepted (interValidate c f) ↔ InterOk c f := by
  unfold interValidate
  rw [(C69_composite _).1]
  unfold accepted
  simp only [List.mem_cons, List.not_mem_nil, or_false, forall_eq_or_imp, forall_eq, true_and]
  rw [weight_nil]
  unfold interTreatmentErrors interPanelErrors interColumnErrors
  rw [withCols_nil, withCols_nil]
  simp only [Except.ok.injEq, List.append_eq_nil_iff, missingOf_nil]
  have h1 : ((if varies f c.gname c.dname then [] else [Msg.noSwitchers]) : List Msg) = [] ↔
      ¬ ConstantWithin f c.gname c.dname := by
    rw [← varies_false]; cases varies f c.gname c.dname <;> simp
  have h2 : ((if hasDuplicates f c.gname c.tname then [Msg.duplicates] else []) : List Msg) = [] ↔
      OnePerPeriod f c.gname c.tname := by
    rw [← hasDuplicates_false]; cases hasDuplicates f c.gname c.tname <;> simp
  rw [h1, h2]
  have hw : ∀ (o : Option String) n, n ∈ o.toList ↔ some n = o := by
    intro o n; simp [eq_comm]
  constructor
  · rintro ⟨⟨⟨⟨a1, a2⟩, a3⟩, a4⟩, ⟨_, b2⟩, ⟨_, d2⟩, e⟩
    have hcol : ∀ n, n = c.yname ∨ n = c.tname ∨ n = c.gname ∨ n = c.dname ∨ some n = c.weightsname ∨
        some n = c.cluster ∨ n ∈ c.xvars → n ∈ f.cols := by
      rintro n (rfl | rfl | rfl | rfl | hn | hn | hn)
      · exact a1 ("yname", c.yname) (by simp)
      · exact a1 ("tname", c.tname) (by simp)
      · exact a1 ("gname", c.gname) (by simp)
      · exact a1 ("dname", c.dname) (by simp)
      · exact a2 ("weightsname", n) (List.mem_map.2 ⟨n, (hw _ n).2 hn, rfl⟩)
      · exact a3 ("cluster", n) (List.mem_map.2 ⟨n, (hw _ n).2 hn, rfl⟩)
      · exact a4 ("xformla", n) (List.mem_map.2 ⟨n, hn, rfl⟩)
    exact ⟨hcol, d2, b2, fun w hw' hn => e w hw' (hcol w (by simp [hw'])) hn⟩
  · rintro ⟨h1, h2, h3, h4⟩
    refine ⟨⟨⟨⟨?_, ?_⟩, ?_⟩, ?_⟩, ⟨?_, h3⟩, ⟨?_, h2⟩, fun w hw' _ hn => h4 w hw' hn⟩
    · intro p hp'
      simp at hp'
      rcases hp' with rfl | rfl | rfl | rfl <;> exact h1 _ (by simp)
    · intro p hp'
      rw [List.mem_map] at hp'
      obtain ⟨n, hn, rfl⟩ := hp'
      exact h1 n (by simp [(hw _ n).1 hn])
    · intro p hp'
      rw [List.mem_map] at hp'
      obtain ⟨n, hn, rfl⟩ := hp'
      exact h1 n (by simp [(hw _ n).1 hn])
    · intro p hp'
      rw [List.mem_map] at hp'
      obtain ⟨n, hn, rfl⟩ := hp'
      exact h1 n (by simp [hn])
    · intro n hn
      simp at hn
      rcases hn with rfl | rfl <;> exact h1 _ (by simp)
    · intro n hn
      simp at hn
      rcases hn with rfl | rfl <;> exact h1 _ (by simp)

/-- Treatment is missing once, and otherwise always 1. -/
def interFrame : Frame where
  cols := ["id", "t", "d", "y"]
  numeric := fun _ => true
  rows := [((1 : ℚ), (1 : ℚ), Cell.num 1), (1, 2, .null), (2, 1, .num 1), (2, 2, .num 1)].map fun p c =>
    if c = "id" then .num p.1 else if c = "t" then .num p.2.1 else if c = "d" then p.2.2 else .num 5

/-- **C69 (no unit changes treatment, violated).** A missing treatment value counts as a change: data
in which no unit's observed treatment ever changes are accepted by `did_multiplegt`. -/
theorem C69_missing_treatment_violated :
    accepted (interValidate ⟨"y", "t", "id", "d", none, none, []⟩ interFrame) ∧
    ∀ a ∈ interFrame.rows, ∀ b ∈ interFrame.rows, a "d" ≠ .null → b "d" ≠ .null → a "d" = b "d" := by
  refine ⟨by decide +kernel, ?_⟩
  intro a ha b hb
  simp [interFrame] at ha hb
  rcases ha with rfl | rfl | rfl | rfl <;> rcases hb with rfl | rfl | rfl | rfl <;> simp

end Verif.Valid
