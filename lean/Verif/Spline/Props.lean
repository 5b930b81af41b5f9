import Verif.Spline.Lemmas

/-!
# Histories of a spline object (C66, C67, C90)
-/

set_option linter.unusedSectionVars false
set_option linter.unusedSimpArgs false

namespace Verif.Spline

/-! ## Specification -/

/-- A knot array is *clamped* for the given order: sorted, it is the lower boundary knot `order`
times, distinct interior knots, then the upper boundary knot `order` times. -/
def Clamped (order : ℕ) (q : List ℚ) : Prop :=
  ∃ lo hi l, sortQ q = simpleKnots lo hi l order ∧ lo < hi ∧ l.Nodup ∧
    ∀ k ∈ l, lo < k ∧ k < hi

/-- The calls a history may contain: any call to a getter, `set_x`, `set_internal_knots`,
`set_degree`, `set_order` (successful or rejected), `set_boundary_knots` that is accepted, and
`set_knot_sequence` with `None` or an accepted clamped sequence. -/
def Admissible (s : State) : Op → Prop
  | .setBoundary b => (setBoundary s b).1 = none
  | .setKnots (some q) => (setKnots s (some q)).1 = none ∧ Clamped s.order q
  | _ => True

/-- The object after a history of calls (exceptions are caught by the caller). -/
def run (s : State) : List Op → State
  | [] => s
  | op :: t => run (step s op).2 t

/-- Every call of the history is admissible where it happens. -/
def AdmissibleRun (s : State) : List Op → Prop
  | [] => True
  | op :: t => Admissible s op ∧ AdmissibleRun (step s op).2 t

/-- The object built afresh from the settings the object currently reports. -/
def fresh (s : State) : Option Err × State :=
  init s.x (some s.internal) (boundaryList s) none s.degree none

/-! ## The invariant -/

/-- Consistent object: not extended, caches flagged current agree with the settings. -/
structure Good (s : State) : Prop where
  ext : s.ext = false
  df : s.df = s.internal.length + s.order
  sorted : s.internal.Pairwise (· ≤ ·)
  bnd : ∀ p, s.boundary = some p → p.1 < p.2
  inside : ∀ k ∈ s.internal, ∃ p, s.boundary = some p ∧ p.1 < k ∧ k < p.2
  latest : s.latest = true →
    ∃ p, s.boundary = some p ∧ s.knots = some (simpleKnots p.1 p.2 s.internal s.order)
  xlatest : s.xLatest = true →
    ∃ x, s.x = some x ∧ s.xIndex = some (x.map (searchRight s.internal))

theorem minQ_lt_maxQ_of_not_close {l : List ℚ} (hne : l ≠ []) (h : isClose (minQ l) (maxQ l) = false) :
    minQ l < maxQ l := by
  refine lt_of_le_of_ne (minQ_le (maxQ_mem hne)) ?_
  intro e
  rw [e, isClose_self] at h
  exact absurd h (by simp)

theorem unique_two {l : List ℚ} (h : (unique l).length = 2) :
    (unique l).getD 0 0 < (unique l).getD 1 0 := by
  have hs := unique_sorted l
  match hu : unique l, h with
  | [a, b], _ =>
    rw [hu] at hs
    simpa using hs

/-- Outcome of settling the boundary. -/
theorem simplifyBoundary_spec (s : State) (b : Option (List ℚ)) :
    ∃ bd, (simplifyBoundary s b).2 = { s with boundary := bd } ∧
      ((∀ p, s.boundary = some p → p.1 < p.2) → ∀ p, bd = some p → p.1 < p.2) ∧
      (b = boundaryList s → (∀ p, s.boundary = some p → p.1 < p.2) →
        s.boundary = none ∨ bd = s.boundary) := by
  unfold simplifyBoundary
  cases b with
  | none =>
    dsimp only
    split
    · rename_i hx
      split
      · exact ⟨s.boundary, rfl, fun h => h, fun _ _ => Or.inr rfl⟩
      · rename_i hne
        split
        · exact ⟨s.boundary, rfl, fun h => h, fun _ _ => Or.inr rfl⟩
        · rename_i hc
          refine ⟨some _, rfl, ?_, fun _ _ => Or.inl (by assumption)⟩
          intro _ p hp
          cases hp
          exact minQ_lt_maxQ_of_not_close hne (by simpa using hc)
    · exact ⟨s.boundary, rfl, fun h => h, fun _ _ => Or.inr rfl⟩
  | some l =>
    dsimp only
    split
    · rename_i h2
      refine ⟨some _, rfl, ?_, ?_⟩
      · intro _ p hp
        cases hp
        exact unique_two h2
      · intro hb hlt
        unfold boundaryList at hb
        cases hs : s.boundary with
        | none => exact Or.inl rfl
        | some p =>
          right
          rw [hs] at hb
          simp only [Option.map_some, Option.some.injEq] at hb
          rw [hb, unique_pair (hlt p hs)]
          simp
    · exact ⟨s.boundary, rfl, fun h => h, fun _ _ => Or.inr rfl⟩

/-- Outcome of settling the internal knots. -/
theorem simplifyInternal_spec (s : State) (ik : List ℚ) :
    ((simplifyInternal s ik).1 ≠ none ∧ (simplifyInternal s ik).2 = s) ∨
    ((simplifyInternal s ik).1 = none ∧
      ∃ m, (simplifyInternal s ik).2 = { s with internal := sortQ ik, mult := m } ∧
        ∀ k ∈ ik, ∃ p, s.boundary = some p ∧ p.1 < k ∧ k < p.2) := by
  unfold simplifyInternal
  split
  · rename_i h
    right
    subst h
    exact ⟨rfl, false, rfl, by simp⟩
  · split
    · left; exact ⟨by simp, rfl⟩
    · rename_i hne _ lo hi hb
      split
      · left; exact ⟨by simp, rfl⟩
      · rename_i h
        right
        push Not at h
        refine ⟨rfl, _, rfl, ?_⟩
        intro k hk
        exact ⟨(lo, hi), hb, lt_of_lt_of_le h.1 (minQ_le hk), lt_of_le_of_lt (le_maxQ hk) h.2⟩

theorem good_boundary_none {s : State} (h : Good s) (hb : s.boundary = none) :
    s.latest = false ∧ s.internal = [] := by
  constructor
  · by_contra hc
    obtain ⟨p, hp, _⟩ := h.latest (by simpa using hc)
    rw [hb] at hp; simp at hp
  · by_contra hc
    obtain ⟨k, hk⟩ := List.exists_mem_of_ne_nil _ hc
    obtain ⟨p, hp, _⟩ := h.inside k hk
    rw [hb] at hp; simp at hp

theorem good_setX {s : State} (h : Good s) (x : List ℚ) : Good (setX s x).2 :=
  ⟨h.ext, h.df, h.sorted, h.bnd, h.inside, h.latest, by simp [setX]⟩

theorem good_setInternal {s : State} (h : Good s) (k : Option (List ℚ)) :
    Good (setInternal s k).2 := by
  unfold setInternal
  split
  · exact h
  · obtain ⟨bd, hbd, hlt, hsame⟩ := simplifyBoundary_spec s (boundaryList s)
    have hlt' := hlt h.bnd
    have hsame' := hsame rfl h.bnd
    -- the state with the (possibly new) boundary is still good
    have hg : Good (simplifyBoundary s (boundaryList s)).2 := by
      rw [hbd]
      rcases hsame' with hn | he
      · obtain ⟨h1, h2⟩ := good_boundary_none h hn
        refine ⟨h.ext, h.df, h.sorted, hlt', ?_, ?_, h.xlatest⟩
        · intro k hk; simp only at hk; rw [h2] at hk; simp at hk
        · intro hl; simp only at hl; rw [h1] at hl; simp at hl
      · subst he; exact h
    unfold simplifyKnots
    rcases hsb : simplifyBoundary s (boundaryList s) with ⟨_ | e, s'⟩
    · rw [hsb] at hg hbd
      dsimp only at hg hbd ⊢
      rcases simplifyInternal_spec s' (k.getD []) with ⟨h1, h2⟩ | ⟨h1, m, h2, h3⟩
      · rcases hsi : simplifyInternal s' (k.getD []) with ⟨_ | e, s''⟩
        · rw [hsi] at h1; exact absurd rfl h1
        · rw [hsi] at h2; dsimp only at h2 ⊢; rw [h2]; exact hg
      · rcases hsi : simplifyInternal s' (k.getD []) with ⟨_ | e, s''⟩
        · rw [hsi] at h2; dsimp only at h2 ⊢; rw [h2]
          refine ⟨hg.ext, rfl, sortQ_sorted _, hg.bnd, ?_, by simp, by simp⟩
          intro a ha
          exact h3 a (mem_sortQ.1 ha)
        · rw [hsi] at h1; simp at h1
    · rw [hsb] at hg
      exact hg

theorem good_setBoundary {s : State} (h : Good s) (b : Option (List ℚ))
    (hok : (setBoundary s b).1 = none) : Good (setBoundary s b).2 := by
  unfold setBoundary at hok ⊢
  split
  · exact h
  · rename_i hne
    rw [if_neg hne] at hok
    obtain ⟨bd, hbd, hlt, -⟩ := simplifyBoundary_spec s b
    have hlt' := hlt h.bnd
    unfold simplifyKnots at hok ⊢
    rcases hsb : simplifyBoundary s b with ⟨_ | e, s'⟩
    · rw [hsb] at hbd hok
      dsimp only at hbd hok ⊢
      rcases simplifyInternal_spec s' s.internal with ⟨h1, h2⟩ | ⟨h1, m, h2, h3⟩
      · rcases hsi : simplifyInternal s' s.internal with ⟨_ | e, s''⟩
        · rw [hsi] at h1; exact absurd rfl h1
        · rw [hsi] at hok; simp at hok
      · rcases hsi : simplifyInternal s' s.internal with ⟨_ | e, s''⟩
        · rw [hsi] at h2; dsimp only at h2 ⊢; rw [h2, sortQ_of_sorted h.sorted]
          rw [hbd]
          rw [hbd] at h3
          exact ⟨h.ext, h.df, h.sorted, hlt', h3, by simp, by simp⟩
        · rw [hsi] at h1; simp at h1
    · rw [hsb] at hok; simp at hok

theorem good_setDegree {s : State} (h : Good s) (d : ℤ) : Good (setDegree s d).2 := by
  unfold setDegree
  split
  · exact h
  · split
    · exact h
    · have he := h.ext
      split
      · rename_i hc; rw [he] at hc; simp at hc
      · exact ⟨he, rfl, h.sorted, h.bnd, h.inside, by simp [updateDf], by simp⟩

theorem good_setOrder {s : State} (h : Good s) (o : ℤ) : Good (setOrder s o).2 := by
  unfold setOrder
  split
  · exact h
  · exact good_setDegree h _

theorem good_updateKnots {s : State} (h : Good s) : Good (updateKnots s).2 := by
  unfold updateKnots
  split
  · exact h
  · rw [h.ext]
    simp only [Bool.false_eq_true, if_false]
    unfold setSimple
    split
    · exact h
    · rename_i lo hi hb
      exact ⟨h.ext, h.df, h.sorted, h.bnd, h.inside, fun _ => ⟨(lo, hi), hb, rfl⟩, h.xlatest⟩

theorem good_getKnots {s : State} (h : Good s) : Good (getKnots s).2 := by
  unfold getKnots
  split
  · exact h
  · exact good_updateKnots h

theorem good_getXIndex {s : State} (h : Good s) : Good (getXIndex s) := by
  unfold getXIndex
  split
  · exact h
  · unfold updateXIndex
    split
    · exact ⟨h.ext, h.df, h.sorted, h.bnd, h.inside, h.latest, by simp⟩
    · rename_i x hx
      exact ⟨h.ext, h.df, h.sorted, h.bnd, h.inside, h.latest, fun _ => ⟨x, hx, rfl⟩⟩

theorem good_setKnots_none {s : State} (h : Good s) : Good (setKnots s none).2 :=
  ⟨h.ext, h.df, h.sorted, h.bnd, h.inside, by simp [setKnots], by simp [setKnots]⟩

theorem clamped_sorted {lo hi : ℚ} {l q : List ℚ} {o : ℕ} (hq : sortQ q = simpleKnots lo hi l o) :
    l.Pairwise (· ≤ ·) := by
  have := sortQ_sorted q
  rw [hq] at this
  unfold simpleKnots at this
  rw [List.pairwise_append, List.pairwise_append] at this
  exact this.1.2.1

theorem good_setKnots_some {s : State} (h : Good s) (q : List ℚ)
    (hok : (setKnots s (some q)).1 = none) (hc : Clamped s.order q) :
    Good (setKnots s (some q)).2 := by
  obtain ⟨lo, hi, l, hq, hlt, hnd, hin⟩ := hc
  have hsl := clamped_sorted hq
  unfold setKnots at hok ⊢
  dsimp only at hok ⊢
  split
  · exact h
  · rename_i hne
    rw [if_neg hne] at hok
    unfold setExtended at hok ⊢
    rw [hq] at hok ⊢
    unfold State.order at hok ⊢
    rw [extBoundary_simple, extInternal_simple, extFlag_simple s.degree hnd hlt hin] at *
    split
    · rename_i hs
      split at hs
      · rename_i hh; rw [if_pos hh] at hok; simp at hok
      · rename_i hh; rw [if_neg hh] at hok
        split at hs
        · rename_i hh2; rw [if_pos hh2] at hok; simp at hok
        · simp at hs
    · rename_i hs
      split at hs
      · simp at hs
      · split at hs
        · simp at hs
        · simp only [Prod.mk.injEq, true_and] at hs
          subst hs
          refine ⟨rfl, rfl, hsl, ?_, ?_, ?_, by simp⟩
          · rintro p hp; cases hp; exact hlt
          · intro k hk; exact ⟨(lo, hi), rfl, hin k hk⟩
          · intro _; exact ⟨(lo, hi), rfl, rfl⟩

theorem good_step {s : State} (h : Good s) (op : Op) (ha : Admissible s op) :
    Good (step s op).2 := by
  cases op with
  | setX x => exact good_setX h x
  | setInternal k => exact good_setInternal h k
  | setBoundary b => exact good_setBoundary h b ha
  | setKnots q =>
    cases q with
    | none => exact good_setKnots_none h
    | some q => exact good_setKnots_some h q ha.1 ha.2
  | setDegree d => exact good_setDegree h d
  | setOrder o => exact good_setOrder h o
  | getKnots => exact good_getKnots h
  | getXIndex => exact good_getXIndex h

theorem good_run {s : State} (h : Good s) (ops : List Op) (ha : AdmissibleRun s ops) :
    Good (run s ops) := by
  induction ops generalizing s with
  | nil => exact h
  | cons op t ih => exact ih (good_step h op ha.1) ha.2

/-- A successful construction from knots is consistent. -/
theorem good_init {x internal boundary : Option (List ℚ)} {d : ℤ}
    (hok : (init x internal boundary none d none).1 = none) :
    Good (init x internal boundary none d none).2 := by
  unfold init at hok ⊢
  dsimp only at hok ⊢
  have hblank : Good (blank x d.toNat) :=
    ⟨rfl, by simp [blank, State.order], by simp [blank], by simp [blank], by simp [blank],
      by simp [blank], by simp [blank]⟩
  have key : ∀ ik, (simplifyKnots (blank x d.toNat) ik boundary).1 = none →
      Good (updateDf (simplifyKnots (blank x d.toNat) ik boundary).2) := by
    intro ik hk
    obtain ⟨bd, hbd, hlt, -⟩ := simplifyBoundary_spec (blank x d.toNat) boundary
    have hlt' := hlt hblank.bnd
    unfold simplifyKnots at hk ⊢
    rcases hsb : simplifyBoundary (blank x d.toNat) boundary with ⟨_ | e, s'⟩
    · rw [hsb] at hbd hk
      dsimp only at hbd hk ⊢
      rcases simplifyInternal_spec s' ik with ⟨h1, h2⟩ | ⟨h1, m, h2, h3⟩
      · exact absurd hk h1
      · rw [h2, hbd]
        rw [hbd] at h3
        refine ⟨rfl, rfl, sortQ_sorted _, hlt', ?_, by simp [updateDf, blank],
          by simp [updateDf, blank]⟩
        intro a ha
        exact h3 a (mem_sortQ.1 ha)
    · rw [hsb] at hk; simp at hk
  split
  · rename_i hd; rw [if_pos hd] at hok; simp at hok
  · rename_i hd
    rw [if_neg hd] at hok
    cases internal with
    | none =>
      dsimp only at hok ⊢
      have := key []
      rcases hs : simplifyKnots (blank x d.toNat) [] boundary with ⟨_ | e, s'⟩
      · rw [hs] at this; exact this rfl
      · rw [hs] at hok; simp at hok
    | some ik =>
      dsimp only at hok ⊢
      have := key ik
      rcases hs : simplifyKnots (blank x d.toNat) ik boundary with ⟨_ | e, s'⟩
      · rw [hs] at this; exact good_updateKnots (this rfl)
      · rw [hs] at hok; simp at hok

/-! ## What a consistent object reports -/

theorem good_knotSequence {s : State} (h : Good s) {p : ℚ × ℚ} (hp : s.boundary = some p) :
    knotSequence s = .ok (some (simpleKnots p.1 p.2 s.internal s.order)) := by
  unfold knotSequence getKnots
  cases hl : s.latest with
  | true =>
    simp only [if_true]
    obtain ⟨p', hp', hk⟩ := h.latest hl
    rw [hp] at hp'; cases hp'
    rw [hk]
  | false =>
    unfold updateKnots setSimple
    simp [hl, h.ext, hp, State.order]

theorem good_xIndex {s : State} (h : Good s) :
    xIndexOf s = s.x.map (fun x => x.map (searchRight s.internal)) := by
  unfold xIndexOf getXIndex
  cases hl : s.xLatest with
  | true =>
    obtain ⟨x, hx, hi⟩ := h.xlatest hl
    simp [hx, hi]
  | false =>
    unfold updateXIndex
    cases hx : s.x <;> simp [hx]

theorem fresh_spec {s : State} (h : Good s) {p : ℚ × ℚ} (hp : s.boundary = some p) :
    (fresh s).1 = none ∧ Good (fresh s).2 ∧ (fresh s).2.x = s.x ∧
      (fresh s).2.internal = s.internal ∧ (fresh s).2.boundary = s.boundary ∧
      (fresh s).2.degree = s.degree := by
  have key : (fresh s).1 = none ∧ (fresh s).2.x = s.x ∧
      (fresh s).2.internal = s.internal ∧ (fresh s).2.boundary = s.boundary ∧
      (fresh s).2.degree = s.degree := by
    unfold fresh init boundaryList
    have hd : ¬ ((s.degree : ℤ) < 0) := by omega
    rw [if_neg hd]
    simp only [hp, Option.map_some, Int.toNat_natCast]
    have hu := unique_pair (h.bnd p hp)
    have hsb : simplifyBoundary (blank s.x s.degree) (some [p.1, p.2])
        = (none, { blank s.x s.degree with boundary := some p }) := by
      unfold simplifyBoundary
      simp [hu]
    unfold simplifyKnots
    rw [hsb]
    dsimp only
    rcases simplifyInternal_spec { blank s.x s.degree with boundary := some p } s.internal with
      ⟨h1, h2⟩ | ⟨h1, m, h2, h3⟩
    · exfalso
      apply h1
      unfold simplifyInternal
      split
      · rfl
      · rename_i hne
        dsimp only
        rw [if_neg]
        push Not
        obtain ⟨p1, hp1, h4, -⟩ := h.inside _ (minQ_mem hne)
        obtain ⟨p2, hp2, -, h5⟩ := h.inside _ (maxQ_mem hne)
        rw [hp] at hp1 hp2
        cases hp1; cases hp2
        exact ⟨h4, h5⟩
    · rcases hsi : simplifyInternal { blank s.x s.degree with boundary := some p } s.internal with
        ⟨_ | e, s''⟩
      · rw [hsi] at h2
        dsimp only at h2 ⊢
        subst h2
        rw [sortQ_of_sorted h.sorted]
        simp [updateKnots, updateDf, blank, setSimple]
      · rw [hsi] at h1; simp at h1
  refine ⟨key.1, ?_, key.2⟩
  have := key.1
  unfold fresh at this ⊢
  exact good_init this

/-! ## C66: never stale without an extended sequence -/

/-- **C66.** Build a spline object from x, internal and boundary knots, then make any number of
calls: getters, `set_x`, `set_internal_knots`, `set_degree`, `set_order` (accepted or rejected),
accepted `set_boundary_knots`, and accepted `set_knot_sequence` with a clamped sequence or `None`.
Whatever the history, an object constructed from scratch with the settings now reported is
accepted and reports the same knot sequence, degrees of freedom and x index. -/
theorem C66_no_stale_caches {x internal boundary : Option (List ℚ)} {d : ℤ} (ops : List Op)
    (hok : (init x internal boundary none d none).1 = none)
    (ha : AdmissibleRun (init x internal boundary none d none).2 ops)
    (hb : (run (init x internal boundary none d none).2 ops).boundary ≠ none) :
    (fresh (run (init x internal boundary none d none).2 ops)).1 = none ∧
    knotSequence (run (init x internal boundary none d none).2 ops)
      = knotSequence (fresh (run (init x internal boundary none d none).2 ops)).2 ∧
    (run (init x internal boundary none d none).2 ops).df
      = (fresh (run (init x internal boundary none d none).2 ops)).2.df ∧
    xIndexOf (run (init x internal boundary none d none).2 ops)
      = xIndexOf (fresh (run (init x internal boundary none d none).2 ops)).2 := by
  have hg := good_run (good_init hok) ops ha
  obtain ⟨p, hp⟩ := Option.ne_none_iff_exists'.1 hb
  obtain ⟨h1, h2, h3, h4, h5, h6⟩ := fresh_spec hg hp
  refine ⟨h1, ?_, ?_, ?_⟩
  · rw [good_knotSequence hg hp, good_knotSequence h2 (h5.trans hp), h4]
    simp only [State.order, h6]
  · rw [hg.df, h2.df, h4]
    simp only [State.order, h6]
  · rw [good_xIndex hg, good_xIndex h2, h3, h4]

/-- A history meeting the hypotheses: read, move the knots, be rejected, lower the degree. -/
example : ∃ ops : List Op, ops.length = 6 ∧
    (init (some [0, 1, 2, 4]) (some [1]) none none 3 none).1 = none ∧
    AdmissibleRun (init (some [0, 1, 2, 4]) (some [1]) none none 3 none).2 ops ∧
    (run (init (some [0, 1, 2, 4]) (some [1]) none none 3 none).2 ops).boundary ≠ none := by
  refine ⟨[.getKnots, .setBoundary (some [5, -1]), .setInternal (some [2, 3]), .setInternal (some [9]),
    .setDegree 1, .getXIndex], rfl, by decide +kernel, ?_, by decide +kernel⟩
  refine ⟨trivial, ?_, trivial, trivial, trivial, trivial, trivial⟩
  show (setBoundary _ _).1 = none
  decide +kernel

/-- **C66 (setters take effect).** On an object reached by such a history (with boundary knots
`p`), an accepted `set_internal_knots` is what the next read of the knot sequence shows. -/
theorem C66_set_internal_effective {x internal boundary : Option (List ℚ)} {d : ℤ}
    (ops : List Op) (k : List ℚ) (p : ℚ × ℚ)
    (hok : (init x internal boundary none d none).1 = none)
    (ha : AdmissibleRun (init x internal boundary none d none).2 ops)
    (hp : (run (init x internal boundary none d none).2 ops).boundary = some p)
    (hs : (setInternal (run (init x internal boundary none d none).2 ops) (some k)).1 = none) :
    knotSequence (setInternal (run (init x internal boundary none d none).2 ops) (some k)).2
      = .ok (some (simpleKnots p.1 p.2 (sortQ k)
          ((run (init x internal boundary none d none).2 ops).degree + 1))) := by
  have hg := good_run (good_init hok) ops ha
  generalize run (init x internal boundary none d none).2 ops = s at *
  have hg' := good_setInternal hg (some k)
  have hpost : (setInternal s (some k)).2.boundary = some p ∧
      (setInternal s (some k)).2.internal = sortQ k ∧
      (setInternal s (some k)).2.degree = s.degree := by
    unfold setInternal at hs ⊢
    simp only [Option.getD_some] at hs ⊢
    split
    · rename_i he
      refine ⟨hp, ?_, rfl⟩
      rw [← he, sortQ_of_sorted hg.sorted]
    · rename_i hne
      rw [if_neg hne] at hs
      have hsb : simplifyBoundary s (boundaryList s) = (none, { s with boundary := some p }) := by
        unfold simplifyBoundary boundaryList
        simp [hp, unique_pair (hg.bnd p hp)]
      unfold simplifyKnots at hs ⊢
      rw [hsb] at hs ⊢
      dsimp only at hs ⊢
      rcases simplifyInternal_spec { s with boundary := some p } k with ⟨h1, h2⟩ | ⟨h1, m, h2, h3⟩
      · rcases hsi : simplifyInternal { s with boundary := some p } k with ⟨_ | e, s''⟩
        · rw [hsi] at h1; exact absurd rfl h1
        · rw [hsi] at hs; simp at hs
      · rcases hsi : simplifyInternal { s with boundary := some p } k with ⟨_ | e, s''⟩
        · rw [hsi] at h2; dsimp only at h2 ⊢; subst h2
          exact ⟨rfl, rfl, rfl⟩
        · rw [hsi] at h1; simp at h1
  rw [good_knotSequence hg' hpost.1, hpost.2.1]
  simp only [State.order, hpost.2.2]

example : knotSequence (setInternal (run (init (some [0, 1, 2, 4]) (some [1]) none none 1 none).2
    [.getKnots]) (some [3, 2])).2 = .ok (some [0, 0, 2, 3, 4, 4]) := by decide +kernel

/-! ## C66: the exceptions -/

/-- What an accepted construction from a knot sequence stores. -/
theorem init_seq_spec (q : List ℚ) (d : ℕ) (hok : (init none none none (some q) d none).1 = none) :
    ¬ (sortQ q).length < 2 * (d + 1) ∧
    isClose (extBoundary d (sortQ q)).1 (extBoundary d (sortQ q)).2 = false ∧
    (init none none none (some q) d none).2 =
      { x := none, internal := extInternal d (sortQ q), boundary := some (extBoundary d (sortQ q)),
        degree := d, df := (extInternal d (sortQ q)).length + (d + 1), knots := some (sortQ q),
        mult := extMult d (sortQ q), latest := true, ext := extFlag d (sortQ q), xIndex := none,
        xLatest := false } := by
  have h0 : init none none none (some q) d none = setKnots (blank none d) (some q) := by
    unfold init
    rw [if_neg (by omega)]
    simp
  rw [h0] at hok ⊢
  by_cases h1 : (sortQ q).length < 2 * (d + 1)
  · have : setExtended (blank none d) q = (some .tooShort, blank none d) := if_pos h1
    simp [setKnots, this, show (blank none d).knots = none from rfl] at hok
  · by_cases h2 : isClose (extBoundary d (sortQ q)).1 (extBoundary d (sortQ q)).2 = true
    · have : setExtended (blank none d) q
          = (some .identicalBoundary, { blank none d with knots := some (sortQ q) }) :=
        (if_neg h1).trans (if_pos h2)
      simp [setKnots, this, show (blank none d).knots = none from rfl] at hok
    · refine ⟨h1, by simpa using h2, ?_⟩
      have := (if_neg h1).trans (if_neg h2) |> (fun h => show setExtended (blank none d) q = _ from h)
      simp only [setKnots, this, show (blank none d).knots = none from rfl]
      rfl

/-- Re-parsing a stored sequence. -/
theorem setExtended_again (T : State) (q : List ℚ) (hlen : ¬ (sortQ q).length < 2 * (T.degree + 1))
    (hcl : isClose (extBoundary T.degree (sortQ q)).1 (extBoundary T.degree (sortQ q)).2 = false) :
    setExtended T (sortQ q) = (none, { T with
      knots := some (sortQ q)
      boundary := some (extBoundary T.degree (sortQ q))
      internal := extInternal T.degree (sortQ q)
      mult := extMult T.degree (sortQ q)
      ext := extFlag T.degree (sortQ q)
      latest := true }) := by
  have hss : sortQ (sortQ q) = sortQ q := sortQ_of_sorted (sortQ_sorted q)
  unfold setExtended
  rw [hss]
  exact (if_neg hlen).trans (if_neg (by simp [hcl]))

/-- **C66 (violated, extended sequence).** If an object is built from a knot sequence that is
classified as extended, then any later accepted `set_internal_knots` is undone by the next read of
the knot sequence: the read returns the old sequence and the internal knots revert. -/
theorem C66_extended_reverts_violated (q k : List ℚ) (d : ℕ)
    (hok : (init none none none (some q) d none).1 = none)
    (hext : (init none none none (some q) d none).2.ext = true)
    (hne : (init none none none (some q) d none).2.internal ≠ k)
    (hs : (setInternal (init none none none (some q) d none).2 (some k)).1 = none) :
    knotSequence (setInternal (init none none none (some q) d none).2 (some k)).2
      = .ok (some (sortQ q)) ∧
    (getKnots (setInternal (init none none none (some q) d none).2 (some k)).2).2.internal
      = (init none none none (some q) d none).2.internal := by
  obtain ⟨hlen, hcl, hS⟩ := init_seq_spec q d hok
  generalize (init none none none (some q) d none).2 = S at *
  have hSint : S.internal = extInternal d (sortQ q) := by rw [hS]
  have hSk : S.knots = some (sortQ q) := by rw [hS]
  have hSd : S.degree = d := by rw [hS]
  have hSe' : S.ext = true := hext
  -- what set_internal_knots leaves
  obtain ⟨T, hT, hTk, hTe, hTl, hTd⟩ : ∃ T, setInternal S (some k) = (none, T) ∧
      T.knots = some (sortQ q) ∧ T.ext = true ∧ T.latest = false ∧ T.degree = d := by
    unfold setInternal at hs ⊢
    simp only [Option.getD_some] at hs ⊢
    rw [if_neg hne] at hs ⊢
    unfold simplifyKnots at hs ⊢
    obtain ⟨bd, hbd, -, -⟩ := simplifyBoundary_spec S (boundaryList S)
    rcases hsb : simplifyBoundary S (boundaryList S) with ⟨_ | e, s'⟩
    · rw [hsb] at hs hbd
      dsimp only at hs hbd ⊢
      rcases simplifyInternal_spec s' k with ⟨h3, h2⟩ | ⟨h3, m, h2, -⟩
      · rcases hsi : simplifyInternal s' k with ⟨_ | e, s''⟩
        · rw [hsi] at h3; exact absurd rfl h3
        · rw [hsi] at hs; simp at hs
      · rcases hsi : simplifyInternal s' k with ⟨_ | e, s''⟩
        · rw [hsi] at h2; dsimp only at h2 ⊢
          subst h2; subst hbd
          exact ⟨_, rfl, hSk, hSe', rfl, hSd⟩
        · rw [hsi] at h3; simp at h3
    · rw [hsb] at hs; simp at hs
  rw [hT]
  have hget : getKnots T = setExtended T (sortQ q) := by
    unfold getKnots updateKnots
    simp [hTl, hTe, hTk]
  have hset := setExtended_again T q (by rw [hTd]; exact hlen) (by rw [hTd]; exact hcl)
  constructor
  · unfold knotSequence
    rw [hget, hset]
  · rw [hget, hset, hSint]; dsimp only; rw [hTd]

/-- Knots 0,…,5 with degree 1 are extended (boundary 1 and 4, internal 2, 3); moving the internal
knots to 3/2 is accepted but ignored. -/
example : let s := (init none none none (some [0, 1, 2, 3, 4, 5]) 1 none).2
    s.ext = true ∧ s.internal = [2, 3] ∧ (setInternal s (some [3 / 2])).1 = none ∧
    (setInternal s (some [3 / 2])).2.df = 3 ∧
    knotSequence (setInternal s (some [3 / 2])).2 = .ok (some [0, 1, 2, 3, 4, 5]) ∧
    (getKnots (setInternal s (some [3 / 2])).2).2.df = 3 := by decide +kernel

/-- **C66 (violated, rejected boundary).** A rejected `set_boundary_knots` can leave the object
with the new boundary knots but the old knot sequence, which is reported as current. -/
theorem C66_rejected_boundary_violated :
    ∃ s b, (init (some [0, 4]) (some [1]) none none 1 none) = (none, s) ∧
      (setBoundary s (some b)).1 = some .outside ∧
      (setBoundary s (some b)).2.boundary = some (2, 4) ∧
      knotSequence (setBoundary s (some b)).2 = .ok (some [0, 0, 1, 4, 4]) := by
  refine ⟨(init (some [0, 4]) (some [1]) none none 1 none).2, [2, 4], ?_⟩
  decide +kernel

/-- **C66 (violated, rejected sequence).** A rejected `set_knot_sequence` can be what
`get_knot_sequence` returns afterwards. -/
theorem C66_rejected_sequence_violated :
    ∃ s q, (init (some [0, 4]) (some [1]) none none 1 none) = (none, s) ∧
      (setKnots s (some q)).1 = some .identicalBoundary ∧
      knotSequence (setKnots s (some q)).2 = .ok (some q) ∧
      (setKnots s (some q)).2.internal = [1] := by
  refine ⟨(init (some [0, 4]) (some [1]) none none 1 none).2, [0, 3, 3, 5], ?_⟩
  decide +kernel

/-- **C66 (violated, ignored sequence).** `set_knot_sequence` compares with the cached sequence even
when that cache is out of date, so asking for the sequence the object had before is ignored. -/
theorem C66_ignored_sequence_violated :
    ∃ s q, (init (some [0, 4]) (some [1]) none none 1 none) = (none, s) ∧
      (setInternal s (some [2])).1 = none ∧
      (setKnots (setInternal s (some [2])).2 (some q)).1 = none ∧
      knotSequence (setKnots (setInternal s (some [2])).2 (some q)).2
        = .ok (some [0, 0, 2, 4, 4]) ∧ q = [0, 0, 1, 4, 4] := by
  refine ⟨(init (some [0, 4]) (some [1]) none none 1 none).2, [0, 0, 1, 4, 4], ?_⟩
  decide +kernel

/-- **C66 (violated, rejected degree).** On an extended object a rejected `set_degree` leaves the new
degree in place with the old degrees of freedom. -/
theorem C66_rejected_degree_violated :
    ∃ s, (init none none none (some [0, 1, 2, 3, 4, 5]) 1 none) = (none, s) ∧
      (setDegree s 3).1 = some .tooShort ∧ (setDegree s 3).2.degree = 3 ∧
      (setDegree s 3).2.df = 4 ∧ (setDegree s 3).2.internal.length + 4 = 6 := by
  refine ⟨(init none none none (some [0, 1, 2, 3, 4, 5]) 1 none).2, ?_⟩
  decide +kernel

/-! ## C67: shape of the knot sequence -/

/-- **C67.** After any such history the knot sequence has `internal + 2 (degree + 1)` entries, is
sorted, contains each boundary knot exactly `degree + 1` times and the internal knots in between;
the degrees of freedom are `internal + degree + 1`, and the basis has that many columns. -/
theorem C67_knot_sequence {x internal boundary : Option (List ℚ)} {d : ℤ} (ops : List Op)
    (hok : (init x internal boundary none d none).1 = none)
    (ha : AdmissibleRun (init x internal boundary none d none).2 ops)
    (s : State) (hs : s = run (init x internal boundary none d none).2 ops)
    (lo hi : ℚ) (hb : s.boundary = some (lo, hi)) :
    ∃ K, knotSequence s = .ok (some K) ∧
      K.length = s.internal.length + 2 * (s.degree + 1) ∧
      K.Pairwise (· ≤ ·) ∧ lo < hi ∧
      K.count lo = s.degree + 1 ∧ K.count hi = s.degree + 1 ∧
      K.filter (fun k => decide (lo < k) && decide (k < hi)) = s.internal ∧
      s.df = s.internal.length + s.degree + 1 ∧
      basisCols s = .ok s.df := by
  have hg : Good s := hs ▸ good_run (good_init hok) ops ha
  have hlt : lo < hi := hg.bnd _ hb
  have hin : ∀ k ∈ s.internal, lo < k ∧ k < hi := by
    intro k hk
    obtain ⟨p, hp, h1, h2⟩ := hg.inside k hk
    rw [hb] at hp; cases hp
    exact ⟨h1, h2⟩
  refine ⟨_, good_knotSequence hg hb, ?_, simpleKnots_sorted _ hg.sorted hlt hin, hlt,
    simpleKnots_count_lo _ hlt hin, simpleKnots_count_hi _ hlt hin, ?_, ?_, ?_⟩
  · rw [simpleKnots_length]; rfl
  · unfold simpleKnots
    rw [List.filter_append, List.filter_append]
    have h1 : (List.replicate s.order lo).filter (fun k => decide (lo < k) && decide (k < hi)) = [] := by
      rw [List.filter_eq_nil_iff]
      intro a ha
      rw [List.eq_of_mem_replicate ha]; simp
    have h2 : (List.replicate s.order hi).filter (fun k => decide (lo < k) && decide (k < hi)) = [] := by
      rw [List.filter_eq_nil_iff]
      intro a ha
      rw [List.eq_of_mem_replicate ha]; simp
    have h3 : s.internal.filter (fun k => decide (lo < k) && decide (k < hi)) = s.internal := by
      rw [List.filter_eq_self]
      intro a ha
      simpa using hin a ha
    simp only at h1 h2 h3 ⊢
    rw [h1, h2, h3]; simp
  · rw [hg.df]; rfl
  · unfold basisCols
    have hgu := good_updateKnots hg
    have : (updateKnots s).1 = none ∧
        (updateKnots s).2.knots = some (simpleKnots lo hi s.internal s.order) ∧
        (updateKnots s).2.degree = s.degree := by
      unfold updateKnots
      split
      · rename_i h
        obtain ⟨p, hp, hk⟩ := hg.latest h.1
        rw [hb] at hp; cases hp
        exact ⟨rfl, hk, rfl⟩
      · rw [hg.ext]
        simp [setSimple, hb]
    rcases hu : updateKnots s with ⟨_ | e, s'⟩
    · rw [hu] at this hgu
      dsimp only at this hgu ⊢
      rw [hgu.ext, this.2.1, this.2.2]
      simp only [Option.getD_some, simpleKnots_length, Bool.false_eq_true, if_false, hg.df,
        State.order]
      congr 1
      omega
    · rw [hu] at this; simp at this

example : knotSequence (run (init (some [0, 1, 2, 4]) (some [3, 1]) none none 2 none).2
    [.getKnots, .setDegree 1]) = .ok (some [0, 0, 1, 3, 4, 4]) ∧
    basisCols (run (init (some [0, 1, 2, 4]) (some [3, 1]) none none 2 none).2
    [.getKnots, .setDegree 1]) = .ok 4 := by decide +kernel

/-- **C67 (x index).** After any such history the index reported for a data point is the number of internal knots at or
below it. -/
theorem C67_x_index {x internal boundary : Option (List ℚ)} {d : ℤ} (ops : List Op)
    (hok : (init x internal boundary none d none).1 = none)
    (ha : AdmissibleRun (init x internal boundary none d none).2 ops)
    (s : State) (hs : s = run (init x internal boundary none d none).2 ops) (xs : List ℚ) (hx : s.x = some xs) :
    xIndexOf s = some (xs.map fun v => s.internal.countP fun k => decide (k ≤ v)) := by
  have hg : Good s := hs ▸ good_run (good_init hok) ops ha
  rw [good_xIndex hg, hx, Option.map_some]
  congr 1
  apply List.map_congr_left
  intro v _
  exact searchRight_eq hg.sorted v

example : xIndexOf (run (init (some [0, 1, 2, 4]) (some [3, 1]) none none 2 none).2 [.getXIndex, .setInternal (some [2])]) =
    some [0, 0, 1, 1] := by decide +kernel

/-- **C66 (setters take effect).** An accepted `set_order o` leaves an object of order `o`: the next knot sequence repeats the
boundary knots `o` times. -/
theorem C66_set_order_effective {x internal boundary : Option (List ℚ)} {d : ℤ} (ops : List Op) (o : ℤ)
    (hok : (init x internal boundary none d none).1 = none)
    (ha : AdmissibleRun (init x internal boundary none d none).2 ops) (lo hi : ℚ)
    (hp : (run (init x internal boundary none d none).2 ops).boundary = some (lo, hi))
    (hs : (setOrder (run (init x internal boundary none d none).2 ops) o).1 = none) :
    (((setOrder (run (init x internal boundary none d none).2 ops) o).2.order : ℕ) : ℤ) = o ∧
    knotSequence (setOrder (run (init x internal boundary none d none).2 ops) o).2 =
      .ok (some (List.replicate o.toNat lo ++ (run (init x internal boundary none d none).2 ops).internal ++
        List.replicate o.toNat hi)) := by
  have hg := good_run (good_init hok) ops ha
  generalize run (init x internal boundary none d none).2 ops = s at *
  have hg' := good_setOrder hg o
  have hpost : 1 ≤ o ∧ (setOrder s o).2.degree = (o - 1).toNat ∧ (setOrder s o).2.boundary = some (lo, hi) ∧
      (setOrder s o).2.internal = s.internal := by
    unfold setOrder at hs ⊢
    split at hs
    · simp at hs
    · rename_i ho
      refine ⟨by omega, ?_⟩
      rw [if_neg ho]
      unfold setDegree
      by_cases h1 : (s.degree : ℤ) = o - 1
      · rw [if_pos h1]
        exact ⟨by show s.degree = _; omega, hp, rfl⟩
      · rw [if_neg h1, if_neg (by omega), hg.ext]
        exact ⟨rfl, hp, rfl⟩
  obtain ⟨h1, h2, h3, h4⟩ := hpost
  have ho : (setOrder s o).2.order = o.toNat := by
    unfold State.order
    rw [h2]
    omega
  refine ⟨by rw [ho]; omega, ?_⟩
  rw [good_knotSequence hg' h3, ho, h4]
  rfl

example : (setOrder (run (init (some [0, 1, 2, 4]) (some [3, 1]) none none 2 none).2 []) 2).1 = none ∧
    knotSequence (setOrder (run (init (some [0, 1, 2, 4]) (some [3, 1]) none none 2 none).2 []) 2).2 =
      .ok (some [0, 0, 1, 3, 4, 4]) := by decide +kernel

/-! ## C90: extended sequences lose basis columns -/

/-- **C90 (violated).** For an object built from a knot sequence that is classified as extended,
`spline_df` is `len(knots) - degree - 1`, but `basis` returns `2 * degree` columns fewer (none at
all if that is negative). -/
theorem C90_extended_basis_columns_violated (q : List ℚ) (d : ℕ)
    (hok : (init none none none (some q) d none).1 = none)
    (hext : (init none none none (some q) d none).2.ext = true) :
    (init none none none (some q) d none).2.df = q.length - d - 1 ∧
    basisCols (init none none none (some q) d none).2
      = .ok ((init none none none (some q) d none).2.df - 2 * d) := by
  obtain ⟨hlen, hcl, hS⟩ := init_seq_spec q d hok
  rw [hS] at hext ⊢
  dsimp only at hext ⊢
  have hl : (extInternal d (sortQ q)).length = q.length - 2 * (d + 1) := by
    rw [sortQ_length] at hlen
    unfold extInternal
    rw [List.length_take, List.length_drop, sortQ_length]
    omega
  rw [sortQ_length] at hlen
  refine ⟨?_, ?_⟩
  · rw [hl]; omega
  · unfold basisCols updateKnots
    simp only [ne_eq, reduceCtorEq, not_false_eq_true, and_self, if_true, Option.getD_some,
      hl, sortQ_length]
    rw [hext]
    simp only [if_true]
    congr 1
    omega

/-- Cubic splines on the knots 0,…,9: six basis functions are announced, none is returned; the same
internal and boundary knots given directly yield six. -/
example : let s := (init none none none (some [0, 1, 2, 3, 4, 5, 6, 7, 8, 9]) 3 none).2
    s.ext = true ∧ s.df = 6 ∧ basisCols s = .ok 0 ∧
    basisCols (init none (some s.internal) (boundaryList s) none 3 none).2 = .ok 6 := by
  decide +kernel

end Verif.Spline
