import Verif.Agg.Props2
import Verif.DR.Jackknife

set_option linter.unusedSectionVars false

/-! # C35, C36, C37 (influence functions), C38, C75 -/

namespace Verif.Agg

variable {ι K : Type*}

section
variable [Fintype ι] [Field K]

/-! ## Influence functions in terms of original cohorts -/

theorem weightIF_mk (G : ι → WithTop ℤ) (w : ι → K) (cs : List (Cell ι K)) (p : Cell ι K → Bool) (c : Cell ι K)
    (hc : c ∈ cs) (i : ι) :
    weightIF (lookup cs) G w ((cs.filter p).map (mk G w cs)) (mk G w cs c) i =
      shareIF G w (cohorts cs p) c.g i := by
  have hs := lookup_pairwise cs
  unfold weightIF shareIF cohorts
  simp only
  rw [sumPg_mk, List.map_map, List.map_map, List.map_map]
  have e1 : ((cs.filter p).map ((fun k : RCell ι K => wInd (lookup cs) G w k.rg i - k.pg) ∘ mk G w cs)) =
      (cs.filter p).map ((fun h : ℤ => (if G i = (h : WithTop ℤ) then w i else 0) - share G w h) ∘ Cell.g) := by
    apply List.map_congr_left
    intro c hc
    simp only [Function.comp, mk]
    rw [wInd_code hs G w (mem_lookup_g (List.mem_filter.1 hc).1)]
  have e2 : totalShare G w cs p = ((cs.filter p).map (share G w ∘ Cell.g)).sum := rfl
  rw [e1, ← e2]
  simp only [mk]
  rw [wInd_code hs G w (mem_lookup_g hc)]
  ring

theorem aggIF_mk (G : ι → WithTop ℤ) (w : ι → K) (cs : List (Cell ι K)) (p : Cell ι K → Bool) (i : ι) :
    aggIF (lookup cs) G w ((cs.filter p).map (mk G w cs)) i = meanIF G w cs p i := by
  unfold aggIF meanIF
  rw [sumPg_mk, List.map_map, List.map_map, ← sum_div_list]
  congr 2
  · apply List.map_congr_left
    intro c _
    simp only [Function.comp, mk]; ring
  · apply List.map_congr_left
    intro c hc
    simp only [Function.comp, weightIF_mk G w cs p c (List.mem_filter.1 hc).1]
    rfl

/-- **C37, influence function of the simple aggregate.** -/
theorem C37_simple_influence [DecidableEq K] (G : ι → WithTop ℤ) (w : ι → K) (cs : List (Cell ι K))
    (hne : totalShare G w cs post ≠ 0) : (simpleAgg G w none cs).2 = meanIF G w cs post := by
  unfold simpleAgg
  simp only
  rw [recode_filter G w cs _ post (fun c hc => by rw [isPost_eq G w none cs c hc]; simp), combine_eq G w cs post hne]
  funext i
  exact aggIF_mk G w cs post i

/-- **C37, influence functions of the event-time effects.** -/
theorem C37_dynamic_influence [DecidableEq K] (G : ι → WithTop ℤ) (w : ι → K) (minE maxE : Option ℤ)
    (cs : List (Cell ι K)) : ∀ x ∈ (dynamicAgg G w none minE maxE cs).effects,
      x.psi = meanIF G w cs (atEvent x.label) := by
  intro x hx
  have hl : x.label ∈ (dynamicAgg G w none minE maxE cs).effects.map Eff.label := List.mem_map_of_mem hx
  obtain ⟨⟨c, hc, hce⟩, _⟩ := ((C32_dynamic G w minE maxE cs).2.1 _).1 hl
  unfold dynamicAgg at hx
  simp only [List.mem_map] at hx
  obtain ⟨e, _, rfl⟩ := hx
  rw [sharedEff_label] at hce ⊢
  rw [recode_filter G w cs _ (atEvent e) (fun c _ => Bool.and_true _)]
  unfold sharedEff
  rw [if_neg]
  · funext i; exact aggIF_mk G w cs _ i
  · rw [List.isEmpty_iff, List.map_eq_nil_iff]
    exact List.ne_nil_of_mem (List.mem_filter.2 ⟨hc, by simpa [atEvent] using hce⟩)

/-- **C37, influence functions of the calendar effects.** -/
theorem C37_calendar_influence [DecidableEq K] (G : ι → WithTop ℤ) (w : ι → K)
    (cs : List (Cell ι K)) : ∀ x ∈ (calendarAgg G w cs).effects, x.att.isSome →
      x.psi = meanIF G w cs (atPeriod x.label) := by
  intro x hx hsome
  have hs := lookup_pairwise cs
  unfold calendarAgg at hx
  obtain ⟨n, hn, rfl⟩ := List.mem_map.1 hx
  have : ∃ c ∈ cs, code (lookup cs) c.t = n := by
    obtain ⟨hn, _⟩ := List.mem_filter.1 hn
    obtain ⟨z, hz, rfl⟩ := List.mem_map.1 hn
    rw [mem_uniqueSorted, List.mem_map] at hz
    obtain ⟨r, hr, rfl⟩ := hz
    rw [recode_eq, List.mem_map] at hr
    obtain ⟨c, hc, rfl⟩ := hr
    exact ⟨c, hc, by simp [mk]⟩
  obtain ⟨c, hc, rfl⟩ := this
  rw [sharedEff_label, t2orig_code hs (mem_lookup_t hc)]
  have hfil : (recode G w cs).filter (fun r => decide (r.rt = code (lookup cs) c.t) &&
      decide (r.rg ≤ code (lookup cs) c.t)) = (cs.filter (atPeriod c.t)).map (mk G w cs) := by
    apply recode_filter
    intro c' hc'
    unfold mk atPeriod
    simp only [code_inj hs (mem_lookup_t hc') (mem_lookup_t hc), code_le hs (mem_lookup_g hc') (mem_lookup_t hc),
      Bool.decide_and]
  rw [hfil] at hsome ⊢
  unfold sharedEff at hsome ⊢
  split_ifs at hsome ⊢ with h
  · simp at hsome
  · funext i; exact aggIF_mk G w cs _ i

/-- The reported cohort effects as a table of cells (missing effects count as zero, as in the code). -/
def effTable (effs : List (Eff ι K)) : List (Cell ι K) := effs.map fun x => ⟨x.label, x.label, x.att.getD 0, x.psi⟩

/-- **C37, influence function of the overall group effect**: the same combination of the reported cohort influence
functions plus the correction for estimated shares. -/
theorem C37_group_influence [DecidableEq K] (G : ι → WithTop ℤ) (w : ι → K) (maxE : Option ℤ)
    (cs : List (Cell ι K)) :
    (groupAgg G w maxE cs).overallPsi = meanIF G w (effTable (groupAgg G w maxE cs).effects) fun _ => true := by
  have hs := lookup_pairwise cs
  set effs := (groupAgg G w maxE cs).effects with heffs
  have heffs' : effs = (uniqueSorted (cs.map Cell.g)).map (groupEff maxE (lookup cs) (recode G w cs)) := rfl
  have hlabel : ∀ x ∈ effs, x.label ∈ lookup cs := by
    intro x hx
    rw [heffs', List.mem_map] at hx
    obtain ⟨g, hg, rfl⟩ := hx
    have : (groupEff maxE (lookup cs) (recode G w cs) g).label = g := by
      unfold groupEff; simp only; split_ifs <;> rfl
    rw [this]
    rw [mem_uniqueSorted, List.mem_map] at hg
    obtain ⟨c, hc, rfl⟩ := hg
    exact mem_lookup_g hc
  have hpg : ∀ x ∈ effs, (effCell (lookup cs) G w x).pg = share G w x.label :=
    fun x hx => groupProb_code hs G w (hlabel x hx)
  have hS : sumPg (effs.map (effCell (lookup cs) G w)) = (effs.map fun x => share G w x.label).sum := by
    unfold sumPg
    rw [List.map_map]
    congr 1
    exact List.map_congr_left hpg
  funext i
  show aggIF (lookup cs) G w (effs.map (effCell (lookup cs) G w)) i = _
  have hT : totalShare G w (effTable effs) (fun _ => true) = (effs.map fun x => share G w x.label).sum := by
    unfold totalShare effTable
    rw [List.filter_true, List.map_map]; rfl
  have herr : ((effs.map (effCell (lookup cs) G w)).map fun k => wInd (lookup cs) G w k.rg i - k.pg).sum =
      (effs.map fun x => (if G i = (x.label : WithTop ℤ) then w i else 0) - share G w x.label).sum := by
    rw [List.map_map]
    congr 1
    apply List.map_congr_left
    intro x hx
    simp only [Function.comp, hpg x hx]
    rw [show (effCell (lookup cs) G w x).rg = code (lookup cs) x.label from rfl, wInd_code hs G w (hlabel x hx)]
  unfold aggIF meanIF
  rw [hT, hS, List.filter_true]
  unfold effTable
  rw [List.map_map, List.map_map, List.map_map, List.map_map, ← sum_div_list]
  congr 2
  · apply List.map_congr_left
    intro x hx
    simp only [Function.comp, hpg x hx]
    rw [show (effCell (lookup cs) G w x).psi = x.psi from rfl]; ring
  · apply List.map_congr_left
    intro x hx
    simp only [Function.comp]
    unfold weightIF shareIF cohorts
    rw [hS, herr, hpg x hx, List.filter_true]
    simp only [List.map_map, Function.comp_def]
    rw [show (effCell (lookup cs) G w x).rg = code (lookup cs) x.label from rfl, wInd_code hs G w (hlabel x hx)]
    rw [show (effCell (lookup cs) G w x).att = x.att.getD 0 from rfl]
    ring

/-! ## C36 -/

/-- **C36, constant effects.** The correction for estimated shares is zero for every unit when all combined effects are
equal. -/
theorem C36_constant_effects (G : ι → WithTop ℤ) (w : ι → K) (gs : List ℤ) (hS : (gs.map (share G w)).sum ≠ 0) (a : K)
    (i : ι) : (gs.map fun g => shareIF G w gs g i * a).sum = 0 := by
  rw [sum_mul_list]
  unfold shareIF
  simp only
  rw [sum_sub_list, sum_div_list, sum_div_list, sum_mul_list]
  field_simp
  ring

/-- **C36, mean zero.** Every column of the correction sums to zero over the units. -/
theorem C36_mean_zero (G : ι → WithTop ℤ) (w : ι → K) (hn : (Fintype.card ι : K) ≠ 0) (gs : List ℤ) (g : ℤ) :
    ∑ i, shareIF G w gs g i = 0 := by
  have herr : ∀ h : ℤ, ∑ i, ((if G i = (h : WithTop ℤ) then w i else 0) - share G w h) = 0 := by
    intro h
    rw [Finset.sum_sub_distrib, Finset.sum_const, Finset.card_univ, nsmul_eq_mul]
    unfold share
    rw [mul_div_cancel₀ _ hn, sub_self]
  unfold shareIF
  simp only
  rw [Finset.sum_sub_distrib, ← Finset.sum_div, herr, zero_div, zero_sub, neg_eq_zero, ← Finset.sum_div,
    ← Finset.mul_sum]
  have : ∑ i, (gs.map fun h : ℤ => (if G i = (h : WithTop ℤ) then w i else 0) - share G w h).sum = 0 := by
    clear g
    induction gs with
    | nil => simp
    | cons h l ih => simp only [List.map_cons, List.sum_cons, Finset.sum_add_distrib, ih, herr, add_zero]
  rw [this, mul_zero, zero_div]

/-- The columns of the code's correction are the specification's. -/
theorem C36_code_columns (G : ι → WithTop ℤ) (w : ι → K) (cs : List (Cell ι K)) (p : Cell ι K → Bool) (c : Cell ι K)
    (hc : c ∈ cs) (i : ι) :
    weightIF (lookup cs) G w ((cs.filter p).map (mk G w cs)) (mk G w cs c) i =
      shareIF G w (cohorts cs p) c.g i := weightIF_mk G w cs p c hc i

example : ((cohorts exCells post).map (share exG exW)).sum ≠ 0 ∧ shareIF exG exW (cohorts exCells post) 2004 0 ≠ 0 := by
  decide +kernel

/-! ## C35: balanced composition -/

theorem foldr_max_mem : ∀ (l : List ℕ), (l.foldr max 0 = 0 ∨ l.foldr max 0 ∈ l) ∧ ∀ x ∈ l, x ≤ l.foldr max 0
  | [] => ⟨.inl rfl, by simp⟩
  | a :: l => by
    obtain ⟨h1, h2⟩ := foldr_max_mem l
    simp only [List.foldr_cons]
    constructor
    · rcases le_total a (l.foldr max 0) with h | h
      · rw [max_eq_right h]
        rcases h1 with h1 | h1
        · exact .inl h1
        · exact .inr (List.mem_cons_of_mem _ h1)
      · rw [max_eq_left h]; exact .inr (List.mem_cons_self ..)
    · intro x hx
      rcases List.mem_cons.1 hx with rfl | hx
      · exact le_max_left _ _
      · exact (h2 x hx).trans (le_max_right _ _)

/-- The decoded largest and smallest recoded periods are the last and first period of the cells. -/
theorem maxTime_isLast (cs : List (Cell ι K)) (hne : cs ≠ []) : IsLastPeriod cs (maxTime cs) := by
  have hs := lookup_pairwise cs
  obtain ⟨h1, h2⟩ := foldr_max_mem (cs.map fun c => code (lookup cs) c.t)
  obtain ⟨c0, hc0⟩ := List.exists_mem_of_ne_nil cs hne
  have hpos : (cs.map fun c => code (lookup cs) c.t).foldr max 0 ≠ 0 := by
    have := h2 _ (List.mem_map.2 ⟨c0, hc0, rfl⟩)
    have := code_pos hs (mem_lookup_t hc0)
    omega
  rcases h1 with h1 | h1
  · exact absurd h1 hpos
  · obtain ⟨c, hc, he⟩ := List.mem_map.1 h1
    unfold maxTime
    rw [← he, t2orig_code hs (mem_lookup_t hc)]
    refine ⟨⟨c, hc, rfl⟩, fun c' hc' => ?_⟩
    have := h2 _ (List.mem_map.2 ⟨c', hc', rfl⟩)
    rw [← he] at this
    exact (code_le hs (mem_lookup_t hc') (mem_lookup_t hc)).1 this

theorem minTime_isFirst (cs : List (Cell ι K)) (hne : cs ≠ []) : IsFirstPeriod cs (minTime cs) := by
  have hs := lookup_pairwise cs
  unfold minTime
  cases hm : (cs.map fun c => code (lookup cs) c.t).min? with
  | none => rw [List.min?_eq_none_iff, List.map_eq_nil_iff] at hm; exact absurd hm hne
  | some m =>
    obtain ⟨h1, h2⟩ := foldr_min_mem _ _ hm
    obtain ⟨c, hc, rfl⟩ := List.mem_map.1 h1
    simp only [Option.getD_some]
    rw [t2orig_code hs (mem_lookup_t hc)]
    exact ⟨⟨c, hc, rfl⟩, fun c' hc' => (code_le hs (mem_lookup_t hc) (mem_lookup_t hc')).1
      (h2 _ (List.mem_map.2 ⟨c', hc', rfl⟩))⟩

theorem isLast_unique {cs : List (Cell ι K)} {a b : ℤ} (ha : IsLastPeriod cs a) (hb : IsLastPeriod cs b) : a = b := by
  obtain ⟨⟨c, hc, rfl⟩, h1⟩ := ha
  obtain ⟨⟨c', hc', rfl⟩, h2⟩ := hb
  exact le_antisymm (h2 c hc) (h1 c' hc')

/-- Cell at event time `e` of a cohort observed for at least `b` periods after treatment, `last` being the last
period. -/
def atBalanced (last b e : ℤ) (c : Cell ι K) : Bool := decide (c.t - c.g = e ∧ c.g + b ≤ last)

/-- **C35, cells used.** With `balance_e = b`, the event times reported are the differences `t - g` of the cells of
cohorts with `g + b ≤ last period`, at most `b`, at least `b - last + first`, within `min_e`/`max_e`; the effect at `e`
is the cohort-share weighted mean over exactly the cells of those cohorts at `e`. -/
theorem C35_balanced_cells [DecidableEq K] (G : ι → WithTop ℤ) (w : ι → K) (b : ℤ) (minE maxE : Option ℤ)
    (cs : List (Cell ι K)) (last first : ℤ) (hl : IsLastPeriod cs last) (hf : IsFirstPeriod cs first) :
    (∀ e, e ∈ (dynamicAgg G w (some b) minE maxE cs).effects.map Eff.label ↔
      (∃ c ∈ cs, c.t - c.g = e ∧ c.g + b ≤ last) ∧ b - last + first ≤ e ∧ e ≤ b ∧ inRange minE maxE e) ∧
    ∀ x ∈ (dynamicAgg G w (some b) minE maxE cs).effects, totalShare G w cs (atBalanced last b x.label) ≠ 0 →
      x.att = some (weightedMean G w cs (atBalanced last b x.label)) := by
  have hne : cs ≠ [] := by obtain ⟨⟨c, hc, _⟩, _⟩ := hl; exact List.ne_nil_of_mem hc
  have e1 : maxTime cs = last := isLast_unique (maxTime_isLast cs hne) hl
  have e2 : minTime cs = first := by
    obtain ⟨⟨c, hc, h1⟩, h2⟩ := minTime_isFirst cs hne
    obtain ⟨⟨c', hc', h3⟩, h4⟩ := hf
    exact le_antisymm (by rw [← h3]; exact h2 c' hc') (by rw [← h1]; exact h4 c hc)
  have hinc : ∀ c : Cell ι K, includeBal (some b) cs c = decide (c.g + b ≤ last) := by
    intro c
    unfold includeBal
    simp only [e1, decide_eq_decide]
    omega
  constructor
  · intro e
    rw [dynamic_labels]
    unfold eventTimes
    simp only [List.mem_filter, mem_uniqueSorted, List.mem_map, hinc, balFilter, e1, e2]
    rw [rangeFilter]
    simp only [Bool.and_eq_true, decide_eq_true_eq]
    constructor
    · rintro ⟨⟨⟨c, ⟨hc, h1⟩, h2⟩, h3, h4⟩, h5⟩; exact ⟨⟨c, hc, h2, h1⟩, h3, h4, h5⟩
    · rintro ⟨⟨c, hc, h2, h1⟩, h3, h4, h5⟩; exact ⟨⟨⟨c, ⟨hc, h1⟩, h2⟩, h3, h4⟩, h5⟩
  · intro x hx hne
    unfold dynamicAgg at hx
    simp only [List.mem_map] at hx
    obtain ⟨e, _, rfl⟩ := hx
    rw [sharedEff_label] at hne ⊢
    rw [recode_filter G w cs _ (atBalanced last b e) ?_]
    · exact sharedEff_mk G w cs e _ hne
    · intro c _
      simp only [mk, hinc, atBalanced, Bool.decide_and]
      rfl

/-- **C35.** If every cohort followed for `b` periods has an estimate at each of its first `b + 1` treated periods (no
gaps in the calendar, no skipped cell), then for all reported event times `0 ≤ e ≤ b` the same cohorts contribute. -/
theorem C35_constant_composition [DecidableEq K] (G : ι → WithTop ℤ) (w : ι → K) (b : ℤ) (minE maxE : Option ℤ)
    (cs : List (Cell ι K)) (last : ℤ) (hl : IsLastPeriod cs last)
    (hfull : ∀ c ∈ cs, c.g + b ≤ last → ∀ e, 0 ≤ e → e ≤ b → ∃ c' ∈ cs, c'.g = c.g ∧ c'.t = c.g + e) :
    ∀ e ∈ (dynamicAgg G w (some b) minE maxE cs).effects.map Eff.label,
    ∀ e' ∈ (dynamicAgg G w (some b) minE maxE cs).effects.map Eff.label, 0 ≤ e → 0 ≤ e' →
      ∀ g, g ∈ cohorts cs (atBalanced last b e) ↔ g ∈ cohorts cs (atBalanced last b e') := by
  have hne : cs ≠ [] := by obtain ⟨⟨c, hc, _⟩, _⟩ := hl; exact List.ne_nil_of_mem hc
  have hspec := (C35_balanced_cells G w b minE maxE cs last _ hl (minTime_isFirst cs hne)).1
  have key : ∀ e, 0 ≤ e → e ≤ b → ∀ g, g ∈ cohorts cs (atBalanced last b e) ↔ ∃ c ∈ cs, c.g = g ∧ g + b ≤ last := by
    intro e h0 hb g
    unfold cohorts atBalanced
    simp only [List.mem_map, List.mem_filter, decide_eq_true_eq]
    constructor
    · rintro ⟨c, ⟨hc, _, h2⟩, rfl⟩; exact ⟨c, hc, rfl, h2⟩
    · rintro ⟨c, hc, rfl, h2⟩
      obtain ⟨c', hc', h3, h4⟩ := hfull c hc h2 e h0 hb
      exact ⟨c', ⟨hc', by omega, by omega⟩, h3⟩
  intro e he e' he' h0 h0' g
  rw [key e h0 ((hspec e).1 he).2.2.1, key e' h0' ((hspec e').1 he').2.2.1]

/-- Yearly cells with two cohorts followed for one year and one that is not. -/
def exBal : List (Cell (Fin 6) ℚ) :=
  [⟨2004, 2004, 1, fun _ => 0⟩, ⟨2004, 2005, 2, fun _ => 0⟩, ⟨2004, 2006, 7, fun _ => 0⟩,
   ⟨2005, 2004, 3, fun _ => 0⟩, ⟨2005, 2005, 9, fun _ => 0⟩, ⟨2005, 2006, 4, fun _ => 0⟩,
   ⟨2006, 2004, 3, fun _ => 0⟩, ⟨2006, 2005, 9, fun _ => 0⟩, ⟨2006, 2006, 4, fun _ => 0⟩]

def exBalG : Fin 6 → WithTop ℤ := ![(2004 : ℤ), (2004 : ℤ), (2005 : ℤ), (2006 : ℤ), ⊤, ⊤]

example : (dynamicAgg exBalG exW (some 1) none none exBal).effects.map (fun x => (x.label, x.att)) =
    [(-1, some 3), (0, some (11/3)), (1, some (8/3))] ∧
    cohorts exBal (atBalanced 2006 1 0) = [2004, 2005] ∧ cohorts exBal (atBalanced 2006 1 1) = [2004, 2005] ∧
    cohorts exBal (atBalanced 2006 1 (-1)) = [2005] := by decide +kernel

example : IsLastPeriod exBal 2006 ∧
    ∀ c ∈ exBal, c.g + 1 ≤ 2006 → ∀ e : ℤ, 0 ≤ e → e ≤ 1 → ∃ c' ∈ exBal, c'.g = c.g ∧ c'.t = c.g + e := by
  refine ⟨⟨⟨⟨2004, 2006, 7, fun _ => 0⟩, by simp [exBal], rfl⟩, ?_⟩, ?_⟩
  · intro c hc
    simp only [exBal, List.mem_cons, List.not_mem_nil, or_false] at hc
    rcases hc with rfl | rfl | rfl | rfl | rfl | rfl | rfl | rfl | rfl <;> decide
  · intro c hc h e h0 h1
    have he : e = 0 ∨ e = 1 := by omega
    simp only [exBal, List.mem_cons, List.not_mem_nil, or_false] at hc
    rcases he with rfl | rfl <;>
    rcases hc with rfl | rfl | rfl | rfl | rfl | rfl | rfl | rfl | rfl <;> simp [exBal] at h ⊢

/-- **C35 needs the calendar to be gap-free**: with periods 2004, 2006, 2007 and `balance_e = 1`, cohorts 2004 and 2006
contribute at event time 0 but only cohort 2006 at event time 1. -/
def exGap : List (Cell (Fin 6) ℚ) :=
  [⟨2004, 2004, 1, fun _ => 0⟩, ⟨2004, 2006, 2, fun _ => 0⟩, ⟨2004, 2007, 7, fun _ => 0⟩,
   ⟨2006, 2004, 3, fun _ => 0⟩, ⟨2006, 2006, 9, fun _ => 0⟩, ⟨2006, 2007, 4, fun _ => 0⟩]

theorem C35_gap_violated :
    (dynamicAgg exG exW (some 1) none none exGap).effects.map (fun x => (x.label, x.att)) =
      [(-2, some 3), (0, some (11/3)), (1, some 4)] ∧
    cohorts exGap (atBalanced 2007 1 0) = [2004, 2006] ∧ cohorts exGap (atBalanced 2007 1 1) = [2006] := by
  decide +kernel

end

end Verif.Agg
