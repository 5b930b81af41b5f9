import Verif.Agg.Props3

set_option linter.unusedSectionVars false

/-! # C75: influence functions of the aggregates are derivatives of the aggregates -/

namespace Verif.Agg

open Filter Topology

variable {ι : Type*} [Fintype ι]

/-- The cells with estimates `A c t` in place of `c.att`. -/
def moved (A : Cell ι ℝ → ℝ → ℝ) (t : ℝ) (cs : List (Cell ι ℝ)) : List (Cell ι ℝ) :=
  cs.map fun c => { c with att := A c t }

/-- The estimates of the cells follow differentiable paths whose derivatives are the cells' influence values of unit
`j` (this is property C72 for the cell estimators). -/
structure CellPaths (A : Cell ι ℝ → ℝ → ℝ) (cs : List (Cell ι ℝ)) (j : ι) : Prop where
  start : ∀ c ∈ cs, A c 0 = c.att
  deriv : ∀ c ∈ cs, HasDerivAt (A c) (c.psi j) 0

variable [DecidableEq ι]

theorem share_deriv (G : ι → WithTop ℤ) (w : ι → ℝ) (j : ι) (g : ℤ) :
    HasDerivAt (fun t => share G (DR.upw w j t) g) (if G j = (g : WithTop ℤ) then w j else 0) 0 := by
  have hn : (Fintype.card ι : ℝ) ≠ 0 := by exact_mod_cast (Fintype.card_pos_iff.2 ⟨j⟩).ne'
  have e : (fun t => share G (DR.upw w j t) g) =
      fun t => share G w g + t * (if G j = (g : WithTop ℤ) then w j else 0) := by
    funext t
    unfold share
    rw [div_add' _ _ _ hn]
    congr 1
    have : ∀ i, (if G i = (g : WithTop ℤ) then DR.upw w j t i else 0) =
        (if G i = (g : WithTop ℤ) then w i else 0) +
          (if i = j then (t * (if G j = (g : WithTop ℤ) then w j else 0)) * (Fintype.card ι : ℝ) else 0) := by
      intro i
      unfold DR.upw
      by_cases hi : i = j
      · subst hi
        by_cases hg : G i = (g : WithTop ℤ)
        · simp only [hg, if_true]; ring
        · simp [hg]
      · simp [hi]
    rw [Finset.sum_congr rfl fun i _ => this i, Finset.sum_add_distrib, Finset.sum_ite_eq' Finset.univ j]
    simp
  rw [e]
  have := ((hasDerivAt_id (0 : ℝ)).mul_const (if G j = (g : WithTop ℤ) then w j else 0)).const_add (share G w g)
  simpa using this

theorem list_sum_deriv {α : Type*} (l : List α) (f : α → ℝ → ℝ) (f' : α → ℝ)
    (h : ∀ c ∈ l, HasDerivAt (f c) (f' c) 0) :
    HasDerivAt (fun t => (l.map fun c => f c t).sum) ((l.map f').sum) 0 := by
  induction l with
  | nil => simpa using hasDerivAt_const (0 : ℝ) (0 : ℝ)
  | cons a l ih =>
    simp only [List.map_cons, List.sum_cons]
    exact (h a (List.mem_cons_self ..)).add (ih fun c hc => h c (List.mem_cons_of_mem _ hc))

theorem moved_filter (A : Cell ι ℝ → ℝ → ℝ) (t : ℝ) (cs : List (Cell ι ℝ)) (q : ℤ → ℤ → Bool) :
    (moved A t cs).filter (fun c => q c.g c.t) = moved A t (cs.filter fun c => q c.g c.t) := by
  unfold moved
  rw [List.filter_map]; rfl

/-- Unperturbed weights. -/
theorem upw_zero (w : ι → ℝ) (j : ι) : DR.upw w j 0 = w := by
  funext i; unfold DR.upw; simp

/-- The correction without the centring terms, which cancel. -/
theorem shareIF_eq (G : ι → WithTop ℤ) (w : ι → ℝ) (gs : List ℤ) (g : ℤ) (i : ι)
    (hS : (gs.map (share G w)).sum ≠ 0) :
    shareIF G w gs g i = (if G i = (g : WithTop ℤ) then w i else 0) / (gs.map (share G w)).sum -
      share G w g * (gs.map fun h : ℤ => if G i = (h : WithTop ℤ) then w i else 0).sum /
        (gs.map (share G w)).sum ^ 2 := by
  unfold shareIF
  simp only
  rw [sum_sub_list gs (fun h : ℤ => if G i = (h : WithTop ℤ) then w i else 0) (fun h => share G w h)]
  have : (gs.map fun h => share G w h).sum = (gs.map (share G w)).sum := rfl
  rw [this]
  field_simp
  ring

theorem weightedMean_deriv (G : ι → WithTop ℤ) (w : ι → ℝ) (cs : List (Cell ι ℝ)) (j : ι) (A : Cell ι ℝ → ℝ → ℝ)
    (hA : CellPaths A cs j) (q : ℤ → ℤ → Bool) (hS : totalShare G w cs (fun c => q c.g c.t) ≠ 0) :
    HasDerivAt (fun t => weightedMean G (DR.upw w j t) (moved A t cs) fun c => q c.g c.t)
      (meanIF G w cs (fun c => q c.g c.t) j) 0 := by
  set l := cs.filter fun c => q c.g c.t with hl
  have hmem : ∀ c ∈ l, c ∈ cs := fun c hc => (List.mem_filter.1 hc).1
  have eN : ∀ t, (((moved A t cs).filter fun c => q c.g c.t).map fun c => share G (DR.upw w j t) c.g * c.att).sum =
      (l.map fun c => share G (DR.upw w j t) c.g * A c t).sum := by
    intro t
    rw [moved_filter, ← hl]
    unfold moved
    rw [List.map_map]; rfl
  have eS : ∀ t, totalShare G (DR.upw w j t) (moved A t cs) (fun c => q c.g c.t) =
      (l.map fun c => share G (DR.upw w j t) c.g).sum := by
    intro t
    unfold totalShare
    rw [moved_filter, ← hl]
    unfold moved
    rw [List.map_map]; rfl
  have dN := list_sum_deriv l (fun c t => share G (DR.upw w j t) c.g * A c t)
    (fun c => (if G j = (c.g : WithTop ℤ) then w j else 0) * A c 0 + share G (DR.upw w j 0) c.g * c.psi j)
    (fun c hc => (share_deriv G w j c.g).mul (hA.deriv c (hmem c hc)))
  have dS := list_sum_deriv l (fun c t => share G (DR.upw w j t) c.g)
    (fun c => if G j = (c.g : WithTop ℤ) then w j else 0) (fun c _ => share_deriv G w j c.g)
  have hS0 : (l.map fun c => share G w c.g).sum ≠ 0 := hS
  have d := dN.div dS (by rw [upw_zero]; exact hS0)
  have efun : (fun t => weightedMean G (DR.upw w j t) (moved A t cs) fun c => q c.g c.t) =
      (fun t => (l.map fun c => share G (DR.upw w j t) c.g * A c t).sum) /
        fun t => (l.map fun c => share G (DR.upw w j t) c.g).sum := by
    funext t
    unfold weightedMean
    rw [eN, eS]; rfl
  rw [efun]
  refine d.congr_deriv ?_
  symm
  rw [upw_zero]
  have eA : ∀ c ∈ l, A c 0 = c.att := fun c hc => hA.start c (hmem c hc)
  have e1 : (l.map fun c => (if G j = (c.g : WithTop ℤ) then w j else 0) * A c 0 + share G w c.g * c.psi j).sum =
      (l.map fun c => (if G j = (c.g : WithTop ℤ) then w j else 0) * c.att).sum +
        (l.map fun c => share G w c.g * c.psi j).sum := by
    rw [← sum_add_list]
    congr 1
    exact List.map_congr_left fun c hc => by rw [eA c hc]
  have e2 : (l.map fun c => share G w c.g * A c 0).sum = (l.map fun c => share G w c.g * c.att).sum := by
    congr 1
    exact List.map_congr_left fun c hc => by rw [eA c hc]
  rw [e1, e2]
  unfold meanIF
  rw [← hl]
  have hcoh : cohorts cs (fun c => q c.g c.t) = l.map Cell.g := rfl
  have hT : totalShare G w cs (fun c => q c.g c.t) = (l.map fun c => share G w c.g).sum := rfl
  have hgs : ((l.map Cell.g).map (share G w)).sum = (l.map fun c => share G w c.g).sum := by
    rw [List.map_map]; rfl
  rw [hcoh, hT]
  have e3 : (l.map fun c => shareIF G w (l.map Cell.g) c.g j * c.att).sum =
      (l.map fun c => (if G j = (c.g : WithTop ℤ) then w j else 0) * c.att).sum /
        (l.map fun c => share G w c.g).sum -
      (l.map fun c => share G w c.g * c.att).sum *
        (l.map fun c => if G j = (c.g : WithTop ℤ) then w j else 0).sum / (l.map fun c => share G w c.g).sum ^ 2 := by
    rw [← sum_div_list, ← sum_mul_list, ← sum_div_list, ← sum_sub_list]
    congr 1
    apply List.map_congr_left
    intro c _
    rw [shareIF_eq G w _ _ _ (by rw [hgs]; exact hS0), hgs, List.map_map]
    simp only [Function.comp_def]
    ring
  rw [e3]
  field_simp
  ring

/-- **C75, simple aggregation.** The influence value reported for unit `j` is the derivative of the overall effect with
respect to that unit's weight, the cell estimates and the cohort shares moving with it. -/
theorem C75_simple (G : ι → WithTop ℤ) (w : ι → ℝ) (cs : List (Cell ι ℝ)) (j : ι) (A : Cell ι ℝ → ℝ → ℝ)
    (hA : CellPaths A cs j) (hS : totalShare G w cs post ≠ 0) :
    HasDerivAt (fun t => ((simpleAgg G (DR.upw w j t) none (moved A t cs)).1).getD 0)
      ((simpleAgg G w none cs).2 j) 0 := by
  rw [C37_simple_influence G w cs hS]
  have h := weightedMean_deriv G w cs j A hA (fun g t => decide (g ≤ t)) hS
  refine h.congr_of_eventuallyEq ?_
  have hcont : ContinuousAt (fun t => totalShare G (DR.upw w j t) (moved A t cs) post) 0 := by
    have eS : (fun t => totalShare G (DR.upw w j t) (moved A t cs) post) =
        fun t => ((cs.filter post).map fun c => share G (DR.upw w j t) c.g).sum := by
      funext t
      unfold totalShare
      have := moved_filter A t cs (fun g t => decide (g ≤ t))
      rw [show (moved A t cs).filter post = moved A t (cs.filter post) from this]
      unfold moved
      rw [List.map_map]; rfl
    rw [eS]
    exact (list_sum_deriv _ _ _ fun c _ => share_deriv G w j c.g).continuousAt
  have h0 : totalShare G (DR.upw w j 0) (moved A 0 cs) post ≠ 0 := by
    rw [upw_zero]
    unfold totalShare
    have := moved_filter A 0 cs (fun g t => decide (g ≤ t))
    rw [show (moved A 0 cs).filter post = moved A 0 (cs.filter post) from this]
    unfold moved
    rw [List.map_map]; exact hS
  filter_upwards [hcont.eventually_ne h0] with t ht
  rw [C32_simple _ _ _ ht]; rfl

/-- **C75, event-time effects.** -/
theorem C75_dynamic (G : ι → WithTop ℤ) (w : ι → ℝ) (minE maxE : Option ℤ) (cs : List (Cell ι ℝ)) (j : ι)
    (A : Cell ι ℝ → ℝ → ℝ) (hA : CellPaths A cs j) :
    ∀ x ∈ (dynamicAgg G w none minE maxE cs).effects, totalShare G w cs (atEvent x.label) ≠ 0 →
      x.att = some (weightedMean G w cs (atEvent x.label)) ∧
      HasDerivAt (fun t => weightedMean G (DR.upw w j t) (moved A t cs) (atEvent x.label)) (x.psi j) 0 := by
  intro x hx hS
  refine ⟨(C32_dynamic G w minE maxE cs).2.2 x hx hS, ?_⟩
  rw [C37_dynamic_influence G w minE maxE cs x hx]
  exact weightedMean_deriv G w cs j A hA (fun g t => decide (t - g = x.label)) hS

/-- **C75, calendar effects.** -/
theorem C75_calendar (G : ι → WithTop ℤ) (w : ι → ℝ) (cs : List (Cell ι ℝ)) (j : ι)
    (A : Cell ι ℝ → ℝ → ℝ) (hA : CellPaths A cs j) :
    ∀ x ∈ (calendarAgg G w cs).effects, totalShare G w cs (atPeriod x.label) ≠ 0 →
      x.att = some (weightedMean G w cs (atPeriod x.label)) ∧
      HasDerivAt (fun t => weightedMean G (DR.upw w j t) (moved A t cs) (atPeriod x.label)) (x.psi j) 0 := by
  intro x hx hS
  have h := ((C32_calendar G w cs).2.2 x hx).2 hS
  refine ⟨h, ?_⟩
  rw [C37_calendar_influence G w cs x hx (by rw [h]; rfl)]
  exact weightedMean_deriv G w cs j A hA (fun g t => decide (t = x.label ∧ g ≤ x.label)) hS

/-- **C75, overall group effect.** Given paths of the cohort effects with the reported derivatives, the overall
influence value is the derivative of their share-weighted mean. -/
theorem C75_group (G : ι → WithTop ℤ) (w : ι → ℝ) (maxE : Option ℤ) (cs : List (Cell ι ℝ)) (j : ι)
    (A : Cell ι ℝ → ℝ → ℝ) (hA : CellPaths A (effTable (groupAgg G w maxE cs).effects) j)
    (hS : totalShare G w (effTable (groupAgg G w maxE cs).effects) (fun _ => true) ≠ 0) :
    HasDerivAt (fun t => weightedMean G (DR.upw w j t) (moved A t (effTable (groupAgg G w maxE cs).effects))
      fun _ => true) ((groupAgg G w maxE cs).overallPsi j) 0 := by
  rw [C37_group_influence G w maxE cs]
  exact weightedMean_deriv G w _ j A hA (fun _ _ => true) hS

/-- Straight-line paths meet the hypotheses. -/
example : ∃ (A : Cell (Fin 2) ℝ → ℝ → ℝ),
    let cs : List (Cell (Fin 2) ℝ) := [⟨1, 1, 3, fun _ => 2⟩, ⟨1, 2, 5, fun _ => -1⟩]
    CellPaths A cs 0 ∧ totalShare (fun _ => ((1 : ℤ) : WithTop ℤ)) (fun _ => 1) cs post ≠ 0 := by
  refine ⟨fun c t => c.att + t * c.psi 0, ⟨fun c _ => by simp, fun c _ => ?_⟩, ?_⟩
  · have := ((hasDerivAt_id (0 : ℝ)).mul_const (c.psi 0)).const_add c.att
    simpa using this
  · simp [totalShare, post, share]

end Verif.Agg
