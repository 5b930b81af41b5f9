import Verif.Panel.Props2

/-!
# C11: `panel_to_wide` followed by `wide_to_panel`
-/

set_option linter.unusedSectionVars false

namespace Verif.Panel

variable {ι τ β : Type*} [LinearOrder ι] [LinearOrder τ] [DecidableEq β]

/-- Specification: column `c` changes over time for some unit. -/
def ChangesOverTime (df : List (Row ι τ (Name → Option β))) (c : Name) : Prop :=
  ∃ r ∈ df, ∃ s ∈ df, r.id = s.id ∧ r.val c ≠ s.val c

/-- Specification: a stub followed by the separator begins none of the columns of another stub and no
time-invariant column. -/
structure Unambiguous (label : τ → Name) (sep : Name) (stubs cols : List Name)
    (df : List (Row ι τ (Name → Option β))) : Prop where
  stub : ∀ s ∈ stubs, ∀ s' ∈ stubs, ∀ t, IsPeriod df t → (s' ++ sep) <+: (s ++ sep ++ label t) → s' = s
  const : ∀ c ∈ cols, c ∉ stubs → ∀ s ∈ stubs, ¬ (s ++ sep) <+: c

theorem matchStub_none {sep : Name} {stubs : List Name} {c : Name}
    (h : ∀ s ∈ stubs, ¬ (s ++ sep) <+: c) : matchStub sep stubs c = none := by
  unfold matchStub
  rw [List.findSome?_eq_none_iff]
  intro s hs
  rw [if_neg]
  rw [List.isPrefixOf_iff_prefix]
  exact h s hs

theorem matchStub_some {sep : Name} {stubs : List Name} {c s rest : Name} (hs : s ∈ stubs)
    (hc : c = s ++ sep ++ rest) (h : ∀ s' ∈ stubs, (s' ++ sep) <+: c → s' = s) :
    matchStub sep stubs c = some (s, rest) := by
  unfold matchStub
  have hp : (s ++ sep) <+: c := ⟨rest, hc.symm⟩
  have hsome : (stubs.findSome? fun s => if (s ++ sep).isPrefixOf c then
      some (s, c.drop (s ++ sep).length) else none).isSome := by
    rw [List.findSome?_isSome_iff]
    refine ⟨s, hs, ?_⟩
    rw [if_pos (List.isPrefixOf_iff_prefix.2 hp)]; rfl
  obtain ⟨x, hx⟩ := Option.isSome_iff_exists.1 hsome
  rw [hx]
  obtain ⟨s', hs', h'⟩ := List.exists_of_findSome?_eq_some hx
  split_ifs at h' with hpre
  rw [List.isPrefixOf_iff_prefix] at hpre
  have := h s' hs' hpre
  subst this
  rw [← h', hc, List.drop_left]

section Roundtrip

variable {label : τ → Name} {cast : Name → τ} {sep : Name} {cols stubs : List Name}
  {df : List (Row ι τ (Name → Option β))}

theorem mem_varyingCols {c : Name} :
    c ∈ varyingCols cols df ↔ c ∈ cols ∧ ChangesOverTime df c := by
  simp only [varyingCols, List.mem_filter, C08_isVarying_spec, ChangesOverTime]

theorem mem_constantCols {c : Name} :
    c ∈ constantCols cols df ↔ c ∈ cols ∧ ¬ ChangesOverTime df c := by
  simp only [constantCols, List.mem_filter, Bool.not_eq_true', ← Bool.not_eq_true, C08_isVarying_spec,
    ChangesOverTime]

theorem mem_pivots {p : Name × τ} :
    p ∈ varyingCols cols df ×ˢ (df.map Row.t).dedup ↔
      (p.1 ∈ cols ∧ ChangesOverTime df p.1) ∧ IsPeriod df p.2 := by
  obtain ⟨s, t⟩ := p
  rw [List.mem_product, mem_varyingCols, List.mem_dedup, mem_times]

variable (hlab : ∀ t, cast (label t) = t)
  (hstubs : ∀ s, s ∈ stubs ↔ s ∈ cols ∧ ChangesOverTime df s)
  (hun : Unambiguous label sep stubs cols df)

include hstubs hun in
theorem matchStub_pivot {s : Name} {t : τ} (hs : s ∈ stubs) (ht : IsPeriod df t) :
    matchStub sep stubs (pivotName label sep (s, t)) = some (s, label t) :=
  matchStub_some hs rfl fun s' hs' h => hun.stub s hs s' hs' t ht h

include hstubs hun in
theorem matchStub_const {c : Name} (hc : c ∈ constantCols cols df) : matchStub sep stubs c = none := by
  rw [mem_constantCols] at hc
  apply matchStub_none
  intro s hs
  exact hun.const c hc.1 (fun h => hc.2 ((hstubs c).1 h).2) s hs

include hlab hstubs hun in
theorem pivotName_inj {p q : Name × τ} (hp : p.1 ∈ stubs) (hq : q.1 ∈ stubs) (ht : IsPeriod df p.2)
    (h : pivotName label sep p = pivotName label sep q) : p = q := by
  have h1 : q.1 = p.1 := hun.stub p.1 hp q.1 hq p.2 ht (by
    show (q.1 ++ sep) <+: pivotName label sep p
    rw [h]; exact ⟨label q.2, rfl⟩)
  have h2 : label p.2 = label q.2 := by
    unfold pivotName at h
    rw [h1] at h
    exact List.append_cancel_left h
  have h3 : p.2 = q.2 := by rw [← hlab p.2, h2, hlab]
  exact Prod.ext h1.symm h3

include hlab hstubs hun in
theorem mem_wideLabels {n : Name} (hne : stubs ≠ []) :
    n ∈ wideLabels sep stubs (panelToWide label sep cols df).cols ↔
      ∃ t, IsPeriod df t ∧ n = label t := by
  simp only [wideLabels, List.mem_dedup, List.mem_filterMap, panelToWide, List.mem_append,
    List.mem_map, mem_pivots]
  constructor
  · rintro ⟨c, hc | ⟨⟨s, t⟩, ⟨hs, ht⟩, rfl⟩, h⟩
    · rw [matchStub_const hstubs hun hc] at h; cases h
    · rw [matchStub_pivot hstubs hun ((hstubs s).2 hs) ht] at h
      simp only [Option.map_some, Option.some.injEq] at h
      exact ⟨t, ht, h.symm⟩
  · rintro ⟨t, ht, rfl⟩
    obtain ⟨s, hs⟩ := List.exists_mem_of_ne_nil _ hne
    refine ⟨pivotName label sep (s, t), Or.inr ⟨(s, t), ⟨(hstubs s).1 hs, ht⟩, rfl⟩, ?_⟩
    rw [matchStub_pivot hstubs hun hs ht]; rfl

/-- The row function of the model: the cells of unit `u` in the wide table. -/
def wideCell (label : τ → Name) (sep : Name) (cols : List Name)
    (df : List (Row ι τ (Name → Option β))) (u : ι) (n : Name) : Option β :=
  if n ∈ constantCols cols df then (df.find? fun r => r.id = u).bind fun r => r.val n
  else ((varyingCols cols df ×ˢ (df.map Row.t).dedup).find? fun p => pivotName label sep p = n).bind fun p =>
    (df.find? fun r => r.id = u ∧ r.t = p.2).bind fun r => r.val p.1

theorem panelToWide_rows : (panelToWide label sep cols df).rows =
    (df.map Row.id).dedup.map fun u => (u, wideCell label sep cols df u) := rfl

theorem find_row (hnd : NoDuplicates df) {r : Row ι τ (Name → Option β)} (hr : r ∈ df) :
    (df.find? fun s => s.id = r.id ∧ s.t = r.t) = some r := by
  obtain ⟨pre, post, h1⟩ := List.append_of_mem hr
  rw [List.find?_eq_some_iff_append]
  refine ⟨by simp, pre, post, h1, ?_⟩
  intro s hs
  rw [h1, NoDuplicates, List.pairwise_append] at hnd
  have := hnd.2.2 s hs r (by simp)
  simp only [Bool.not_eq_true', decide_eq_false_iff_not]
  exact this

include hlab hstubs hun in
theorem wideCell_pivot (hnd : NoDuplicates df) {r : Row ι τ (Name → Option β)} (hr : r ∈ df) {s : Name}
    (hs : s ∈ stubs) : wideCell label sep cols df r.id (s ++ sep ++ label r.t) = r.val s := by
  have ht : IsPeriod df r.t := ⟨r, hr, rfl⟩
  unfold wideCell
  rw [if_neg]
  · have hf : ((varyingCols cols df ×ˢ (df.map Row.t).dedup).find? fun p =>
        pivotName label sep p = s ++ sep ++ label r.t) = some (s, r.t) := by
      have hsome : ((varyingCols cols df ×ˢ (df.map Row.t).dedup).find? fun p =>
        pivotName label sep p = s ++ sep ++ label r.t).isSome := by
        rw [List.find?_isSome]
        exact ⟨(s, r.t), mem_pivots.2 ⟨(hstubs s).1 hs, ht⟩, by simp [pivotName]⟩
      obtain ⟨p, hp⟩ := Option.isSome_iff_exists.1 hsome
      rw [hp]
      have h1 := List.find?_some hp
      have h2 := mem_pivots.1 (List.mem_of_find?_eq_some hp)
      rw [decide_eq_true_eq] at h1
      rw [pivotName_inj (q := (s, r.t)) hlab hstubs hun ((hstubs _).2 h2.1) hs h2.2 h1]
    rw [hf]
    simp only [Option.bind_some]
    rw [find_row hnd hr]; rfl
  · intro hc
    have h1 := matchStub_const hstubs hun hc
    have h2 := matchStub_pivot hstubs hun hs ht
    unfold pivotName at h2
    rw [h1] at h2; cases h2

theorem wideCell_const {r : Row ι τ (Name → Option β)} (hr : r ∈ df) {c : Name}
    (hc : c ∈ constantCols cols df) : wideCell label sep cols df r.id c = r.val c := by
  unfold wideCell
  rw [if_pos hc]
  have hsome : (df.find? fun s => s.id = r.id).isSome := by
    rw [List.find?_isSome]; exact ⟨r, hr, by simp⟩
  obtain ⟨s, hs⟩ := Option.isSome_iff_exists.1 hsome
  rw [hs]
  have h1 := List.find?_some hs
  have h2 := List.mem_of_find?_eq_some hs
  rw [decide_eq_true_eq] at h1
  rw [mem_constantCols] at hc
  by_contra hne
  exact hc.2 ⟨s, h2, r, hr, h1, hne⟩

/-- **C11.** For a balanced duplicate-free panel, going wide and back to long (with the time-varying columns
as stubs, at least one of them, and unambiguous names) returns exactly the original rows up to order. -/
theorem C11_wide_long_roundtrip (label : τ → Name) (cast : Name → τ) (sep : Name) (cols stubs : List Name)
    (df : List (Row ι τ (Name → Option β)))
    (hlab : ∀ t, cast (label t) = t)
    (hnd : NoDuplicates df) (hbal : Balanced df)
    (hcols : ∀ r ∈ df, ∀ c, c ∉ cols → r.val c = none)
    (hstubs : ∀ s, s ∈ stubs ↔ s ∈ cols ∧ ChangesOverTime df s) (hne : stubs ≠ [])
    (hun : Unambiguous label sep stubs cols df) :
    ∃ out, wideToPanel cast sep stubs (panelToWide label sep cols df) = some out ∧ out.Perm df := by
  have hlabels := fun n => mem_wideLabels (n := n) hlab hstubs hun hne
  -- constant columns found by the backward direction
  have hconst : ∀ c, c ∈ (panelToWide label sep cols df).cols.filter
      (fun c => (matchStub sep stubs c).isNone) ↔ c ∈ constantCols cols df := by
    intro c
    rw [List.mem_filter]
    constructor
    · rintro ⟨h1, h2⟩
      simp only [panelToWide, List.mem_append, List.mem_map, mem_pivots] at h1
      rcases h1 with h1 | ⟨⟨s, t⟩, ⟨hs, ht⟩, rfl⟩
      · exact h1
      · rw [matchStub_pivot hstubs hun ((hstubs s).2 hs) ht] at h2; cases h2
    · intro hc
      refine ⟨by simp [panelToWide, hc], ?_⟩
      rw [matchStub_const hstubs hun hc]; rfl
  -- the panel has a row
  obtain ⟨s0, hs0⟩ := List.exists_mem_of_ne_nil _ hne
  obtain ⟨r0, hr0, -⟩ := ((hstubs s0).1 hs0).2
  have hl0 : wideLabels sep stubs (panelToWide label sep cols df).cols ≠ [] :=
    List.ne_nil_of_mem ((hlabels _).2 ⟨r0.t, ⟨r0, hr0, rfl⟩, rfl⟩)
  unfold wideToPanel
  rw [if_neg]
  swap
  · rintro (h | ⟨c, h1, h2⟩)
    · exact hl0 h
    · rw [hconst, mem_constantCols] at h1
      exact h1.2 ((hstubs c).1 h2).2
  refine ⟨_, rfl, (sortIdT_perm _).trans ?_⟩
  -- cell values
  have hcell : ∀ r ∈ df, (fun c => if c ∈ stubs then
        (if c ++ sep ++ label r.t ∈ (panelToWide label sep cols df).cols then
          wideCell label sep cols df r.id (c ++ sep ++ label r.t) else none)
        else if c ∈ (panelToWide label sep cols df).cols.filter (fun c => (matchStub sep stubs c).isNone) then
          wideCell label sep cols df r.id c else none) = r.val := by
    intro r hr
    funext c
    by_cases hc : c ∈ stubs
    · rw [if_pos hc, if_pos]
      · exact wideCell_pivot hlab hstubs hun hnd hr hc
      · simp only [panelToWide, List.mem_append, List.mem_map]
        exact Or.inr ⟨(c, r.t), mem_pivots.2 ⟨(hstubs c).1 hc, ⟨r, hr, rfl⟩⟩, rfl⟩
    · rw [if_neg hc]
      by_cases hc' : c ∈ constantCols cols df
      · rw [if_pos ((hconst c).2 hc')]
        exact wideCell_const hr hc'
      · rw [if_neg (fun h => hc' ((hconst c).1 h))]
        symm
        apply hcols r hr
        intro hcc
        by_cases hv : ChangesOverTime df c
        · exact hc ((hstubs c).2 ⟨hcc, hv⟩)
        · exact hc' (mem_constantCols.2 ⟨hcc, hv⟩)
  have hcastinj : ∀ p ∈ wideLabels sep stubs (panelToWide label sep cols df).cols,
      label (cast p) = p := by
    intro p hp
    obtain ⟨t, _, rfl⟩ := (hlabels p).1 hp
    rw [hlab]
  have hn : df.Nodup := List.Nodup.of_map _ (noDuplicates_iff.1 hnd)
  rw [List.perm_ext_iff_of_nodup _ hn]
  · intro r
    simp only [List.mem_flatMap, List.mem_map, panelToWide_rows, List.mem_dedup]
    constructor
    · rintro ⟨p, hp, uf, ⟨u, ⟨q, hq, rfl⟩, rfl⟩, rfl⟩
      obtain ⟨t, ht, rfl⟩ := (hlabels p).1 hp
      obtain ⟨r, hr, h1, rfl⟩ := hbal q.id ⟨q, hq, rfl⟩ t ht
      have := hcell r hr
      rw [← h1, this, hlab]
      exact hr
    · intro hr
      refine ⟨label r.t, (hlabels _).2 ⟨r.t, ⟨r, hr, rfl⟩, rfl⟩,
        (r.id, wideCell label sep cols df r.id), ⟨r.id, ⟨r, hr, rfl⟩, rfl⟩, ?_⟩
      have := hcell r hr
      simp only
      rw [this, hlab]
  · apply List.Nodup.of_map (fun r => (r.id, r.t))
    rw [List.map_flatMap]
    rw [List.nodup_flatMap]
    constructor
    · intro p hp
      simp only [panelToWide_rows, List.map_map, Function.comp_def]
      apply List.Nodup.map
      · intro a b h; simpa using h
      · exact List.nodup_dedup _
    · have hd : (wideLabels sep stubs (panelToWide label sep cols df).cols).Nodup := List.nodup_dedup _
      refine List.Pairwise.imp_of_mem ?_ hd
      intro p q hp hq hpq x hx hy
      simp only [List.mem_map] at hx hy
      obtain ⟨_, ⟨_, _, rfl⟩, rfl⟩ := hx
      obtain ⟨_, ⟨_, _, rfl⟩, h⟩ := hy
      simp only [Prod.mk.injEq] at h
      apply hpq
      rw [← hcastinj p hp, ← hcastinj q hq, h.2]

end Roundtrip

/-! ### Concrete instance and the failure of stub matching -/

/-- Example labels for periods 0…9. -/
def digit (n : Fin 10) : Name := [Char.ofNat (48 + n.1)]

/-- Inverse of `digit` (`int(label)`). -/
def undigit (n : Name) : Fin 10 := match n with
  | [c] => Fin.ofNat 10 (c.toNat - 48)
  | _ => 0

/-- A panel with a time-varying column `y` and a constant column `x`. -/
def exWide : List (Row ℕ (Fin 10) (Name → Option ℕ)) :=
  [⟨1, 1, fun c => if c = ['y'] then some 3 else if c = ['x'] then some 8 else none⟩,
   ⟨1, 2, fun c => if c = ['y'] then some 4 else if c = ['x'] then some 8 else none⟩,
   ⟨2, 2, fun c => if c = ['y'] then some 7 else if c = ['x'] then some 9 else none⟩,
   ⟨2, 1, fun c => if c = ['y'] then some 6 else if c = ['x'] then some 9 else none⟩]

theorem exWide_varying (s : Name) : s ∈ [['y']] ↔ s ∈ [['x'], ['y']] ∧ ChangesOverTime exWide s := by
  unfold ChangesOverTime
  rw [← C08_isVarying_spec (fun v : Name → Option ℕ => v s)]
  constructor
  · intro h
    simp only [List.mem_singleton] at h
    subst h
    decide
  · rintro ⟨h1, h2⟩
    simp only [List.mem_cons, List.not_mem_nil, or_false] at h1
    rcases h1 with rfl | rfl
    · revert h2; decide
    · simp

/-- The hypotheses of `C11_wide_long_roundtrip` hold for `exWide`. -/
example : ∃ out, wideToPanel undigit ['_'] [['y']] (panelToWide digit ['_'] [['x'], ['y']] exWide) = some out ∧
    out.Perm exWide := by
  apply C11_wide_long_roundtrip
  · decide
  · unfold NoDuplicates exWide; simp
  · rw [← isBalanced_iff]; decide
  · intro r hr c hc
    simp only [List.mem_cons, List.not_mem_nil, or_false, not_or] at hc
    simp only [exWide, List.mem_cons, List.not_mem_nil, or_false] at hr
    rcases hr with rfl | rfl | rfl | rfl <;> simp [hc.1, hc.2]
  · exact exWide_varying
  · simp
  · constructor
    · intro s hs s' hs' _ _ _
      simp only [List.mem_singleton] at hs hs'
      rw [hs, hs']
    · intro c hc hn s hs
      simp only [List.mem_cons, List.not_mem_nil, or_false] at hc hn hs
      rcases hc with rfl | rfl
      · subst hs; decide
      · exact absurd rfl hn

/-- **C11, violated for ambiguous stubs.** With stubs `y` and `y_l` the column `y_l_1` is taken for stub `y`
with period label `l_1`: the result has rows for a period that does not exist, carrying the values of `y_l`
under the name `y`. -/
theorem C11_ambiguous_stub_violated :
    ∃ (w : Wide ℕ ℕ) (stubs : List Name),
      w.cols = ["y_1".toList, "y_l_1".toList] ∧ stubs = ["y".toList, "y_l".toList] ∧
      wideLabels ['_'] stubs w.cols = ["1".toList, "l_1".toList] ∧
      ∃ out, wideToPanel (fun l : Name => l.length) ['_'] stubs w = some out ∧ out.length = 2 ∧
        ∃ r ∈ out, r.val "y".toList = some 20 ∧ ∃ f, (1, f) ∈ w.rows ∧ f "y_l_1".toList = some 20 := by
  refine ⟨⟨["y_1".toList, "y_l_1".toList], [(1, fun n => if n = "y_1".toList then some 10 else
    if n = "y_l_1".toList then some 20 else none)]⟩, ["y".toList, "y_l".toList], rfl, rfl, by decide, ?_⟩
  unfold wideToPanel
  refine ⟨_, by rw [if_neg (by decide)], ?_, ?_⟩
  · rw [(sortIdT_perm _).length_eq]; decide
  · refine ⟨⟨1, 3, _⟩, mem_sortIdT.2 (List.mem_flatMap.2 ⟨"l_1".toList, by decide,
      List.mem_map.2 ⟨_, List.mem_singleton.2 rfl, rfl⟩⟩), by decide, _, List.mem_singleton.2 rfl, by decide⟩

/-- **C11, violated for stubs that happen not to vary.** If a requested stub turned out time-invariant,
`panel_to_wide` keeps it as a plain column and `wide_to_panel` fails on the duplicate name. -/
theorem C11_constant_stub_violated :
    ∃ (df : List (Row ℕ (Fin 10) (Name → Option ℕ))),
      wideToPanel undigit ['_'] [['y'], ['x']] (panelToWide digit ['_'] [['x'], ['y']] df) = none := by
  refine ⟨exWide, ?_⟩
  unfold wideToPanel
  rw [if_pos (by decide)]

end Verif.Panel
