import Verif.Cont.PteAgg
import Mathlib.Tactic.Ring

/-!
# C275: `aggregate_att_gt` by cohort and with a balanced composition

Models the branches of `aggregate_att_gt` not covered by C225-C227 (`moderndid/didcont/estimation/process_aggte.py`):
`aggregation_type="group"` (lines 95-186), `balance_event` of `"dynamic"` (lines 188-202, 223-240) and
`check_critical_value` (lines 441-453).  Every cell is assumed to have an estimate.
-/

set_option linter.unusedSectionVars false
set_option linter.unusedSimpArgs false

namespace Verif.Cont

variable {ι K : Type*}

section Model
variable [Field K] [LinearOrder K]

/-- `att_by_group` for one cohort, `process_aggte.py:98-119`: the mean of the selected cells; `none` is NaN. -/
def mulGroup (maxE : Option ℤ) (cells : List (ℤ × ℤ)) (att : ℤ × ℤ → K) (g : ℤ) : Option K :=
  let ks := cells.filter (isThis maxE cells g)
  if ks = [] then none else some ((ks.map att).sum / (ks.length : K))

/-- `inf_g`, `process_aggte.py:112-115`: the influence functions of the cohort's cells, weighted by
`safe_normalize(pg_att[which_g])`, at one unit `i`. -/
def mulGroupIF (maxE : Option ℤ) (share : ℤ → K) (cells : List (ℤ × ℤ)) (inf : ℤ × ℤ → ι → K) (g : ℤ) (i : ι) : K :=
  let ks := cells.filter (isThis maxE cells g)
  ((ks.zip (safeNormalize (ks.map (pgAtt share cells)))).map fun p => inf p.1 i * p.2).sum

/-- `overall_att` of `aggregation_type="group"`, `process_aggte.py:136-143,172`. -/
def mulGroupOverall (maxE : Option ℤ) (share : ℤ → K) (cells : List (ℤ × ℤ)) (att : ℤ × ℤ → K) : Option K :=
  let valid := (pgOf share cells).filterMap fun p => (mulGroup maxE cells att p.1).map fun a => (a, p.2)
  if valid = [] then none else some ((valid.map fun q => q.1 * q.2).sum / (valid.map Prod.snd).sum)

/-- `include_balanced`, `process_aggte.py:194`. -/
def inclBalanced (b : ℤ) (cells : List (ℤ × ℤ)) (c : ℤ × ℤ) : Bool := decide (b ≤ maxT cells - toIdx cells c.1)

/-- `eseq` with `balance_event` set, `process_aggte.py:190-202` (`int` bounds; an infinite bound is `none`). -/
def balEvents (b : ℤ) (minE maxE : Option ℤ) (cells : List (ℤ × ℤ)) : List ℤ :=
  (((((cells.filter (inclBalanced b cells)).map (eventIdx cells)).dedup.insertionSort (· ≤ ·)).filter fun e =>
    decide (e ≤ b) && decide (b - maxT cells + 1 ≤ e)).filter fun e => minE.all fun m => decide (m ≤ e)).filter
      fun e => maxE.all fun m => decide (e ≤ m)

/-- `dyn_att` with `balance_event` set, `process_aggte.py:223-240`. -/
def balDyn (b : ℤ) (share : ℤ → K) (cells : List (ℤ × ℤ)) (att : ℤ × ℤ → K) (e : ℤ) : Option K :=
  aggSel share cells att fun c => decide (eventIdx cells c = e) && inclBalanced b cells c

/-- `check_critical_value`, `process_aggte.py:441-453`: `z` is the pointwise value, `none` a bootstrap value that is not
finite. -/
def checkCrit (z : K) (boot : Option K) : K :=
  match boot with
  | none => z
  | some v => if v < z then z else v

end Model

/-! ## C275: cohorts -/

section
variable [Field K] [LinearOrder K] [IsStrictOrderedRing K]
variable {ts gs : List ℤ} (hts : ts.Pairwise (· < ·)) (hgs : gs.Pairwise (· < ·)) (hne : gs ≠ [])
  (hsub : ∀ g ∈ gs, g ∈ ts) (hpos : ∀ g ∈ gs, 0 < g)
include hts hgs hne hsub hpos

theorem filter_isThis {g : ℤ} (hg : g ∈ gs) :
    (product ts gs).filter (isThis none (product ts gs) g) = (ts.filter fun t => decide (g ≤ t)).map fun t => (g, t) := by
  rw [List.filter_congr (q := fun c => decide (c.1 = g) && decide (g ≤ c.2))
    fun c hc => isThis_product hts hne hsub hg hc]
  have hn : gs.Nodup := hgs.imp fun h => ne_of_lt h
  clear hts hsub hne hpos hgs
  unfold product
  induction ts with
  | nil => rfl
  | cons t ts ih =>
    rw [List.flatMap_cons, List.filter_append, ih, List.filter_cons, List.filter_map]
    have e : (fun c : ℤ × ℤ => decide (c.1 = g) && decide (g ≤ c.2)) ∘ (fun g => (g, t)) =
        fun x => decide (x = g) && decide (g ≤ t) := by funext x; rfl
    rw [e]
    by_cases h : g ≤ t
    · simp only [h, decide_true, Bool.and_true, if_true, List.map_cons]
      have : gs.filter (fun x => decide (x = g)) = [g] := by
        have h1 : gs.filter (fun x => x == g) = [g] := by
          rw [List.filter_beq, List.count_eq_one_of_mem hn hg]; rfl
        rw [← h1]
        exact List.filter_congr fun x _ => (beq_eq_decide x g).symm
      rw [this]; rfl
    · simp [h]

/-- **C275, effect of a cohort.** For the cells of `pte` (every cohort in every evaluated period) the effect reported
for cohort `g` is the plain mean of its estimates in the evaluated periods from `g` on. -/
theorem C275_group_effect (att : ℤ × ℤ → K) {g : ℤ} (hg : g ∈ gs) :
    mulGroup none (product ts gs) att g =
      some (((ts.filter fun t => decide (g ≤ t)).map fun t => att (g, t)).sum /
        ((ts.filter fun t => decide (g ≤ t)).length : K)) := by
  unfold mulGroup
  rw [filter_isThis hts hgs hne hsub hpos hg]
  have hm : g ∈ ts.filter fun t => decide (g ≤ t) := List.mem_filter.2 ⟨hsub g hg, by simp⟩
  dsimp only
  rw [if_neg (by simp only [ne_eq, List.map_eq_nil_iff]; exact List.ne_nil_of_mem hm), List.map_map, List.length_map]
  rfl

/-- **C275, influence function of a cohort.** With a positive share, the influence function of a cohort's effect is the
same plain mean of the influence functions of its cells: weight and estimate agree. -/
theorem C275_group_influence (share : ℤ → K) (hs : 0 < (gs.map share).sum) (inf : ℤ × ℤ → ι → K) {g : ℤ} (hg : g ∈ gs)
    (hg0 : 0 < share g) (i : ι) :
    mulGroupIF none share (product ts gs) inf g i =
      ((ts.filter fun t => decide (g ≤ t)).map fun t => inf (g, t) i).sum /
        ((ts.filter fun t => decide (g ≤ t)).length : K) := by
  have hsel : (product ts gs).filter (isThis none (product ts gs) g) =
      (ts.filter fun t => decide (g ≤ t)).map fun t => (g, t) := filter_isThis hts hgs hne hsub hpos hg
  have hm : g ∈ ts.filter fun t => decide (g ≤ t) := List.mem_filter.2 ⟨hsub g hg, by simp⟩
  have hl : (0 : K) < ((ts.filter fun t => decide (g ≤ t)).length : K) := by
    exact_mod_cast List.length_pos_of_mem hm
  have hsum : (((ts.filter fun t => decide (g ≤ t)).map fun t => (g, t)).map fun c : ℤ × ℤ => share c.1).sum =
      ((ts.filter fun t => decide (g ≤ t)).length : K) * share g := by
    rw [List.map_map, show ((fun c : ℤ × ℤ => share c.1) ∘ fun t => (g, t)) = fun _ => share g from rfl]
    simp [List.map_const', List.sum_replicate]
  have hpos' : 0 < (((product ts gs).filter (isThis none (product ts gs) g)).map fun c => share c.1).sum := by
    rw [hsel, hsum]; exact mul_pos hl hg0
  have h := aggSel_product hts hgs hne hsub hpos share hs (fun c => inf c i) (isThis none (product ts gs) g) hpos'
  have hne' : (product ts gs).filter (isThis none (product ts gs) g) ≠ [] := by
    rw [hsel]; simp only [ne_eq, List.map_eq_nil_iff]; exact List.ne_nil_of_mem hm
  unfold aggSel at h
  rw [if_neg hne'] at h
  have h2 := Option.some.inj h
  unfold mulGroupIF
  dsimp only
  rw [h2, hsel, hsum, List.map_map]
  have : ((fun c : ℤ × ℤ => share c.1 * inf c i) ∘ fun t => (g, t)) = fun t => share g * inf (g, t) i := rfl
  rw [this, List.sum_map_mul_left]
  field_simp

/-- **C275, overall effect by cohort.** With positive shares, the overall effect of `aggregation_type="group"` is the
share-weighted average of the cohort means; and it is exactly the combination of the cells with the weights that
`overall_weights` returns. -/
theorem C275_group_overall (share : ℤ → K) (hshare : ∀ g ∈ gs, 0 < share g) (att : ℤ × ℤ → K) :
    mulGroupOverall none share (product ts gs) att =
      some ((gs.map fun g => share g * (((ts.filter fun t => decide (g ≤ t)).map fun t => att (g, t)).sum /
        ((ts.filter fun t => decide (g ≤ t)).length : K))).sum / (gs.map share).sum) ∧
    ∃ ws, overallWeights none share (product ts gs) = some ws ∧
      mulGroupOverall none share (product ts gs) att =
        some ((ws.zip (product ts gs)).map fun p => p.1 * att p.2).sum := by
  have htne : ts ≠ [] := by
    obtain ⟨g, hg⟩ := List.exists_mem_of_ne_nil gs hne
    exact List.ne_nil_of_mem (hsub g hg)
  have hs : 0 < (gs.map share).sum := by
    refine List.sum_pos _ ?_ (by simpa using hne)
    intro x hx
    obtain ⟨g, hg, rfl⟩ := List.mem_map.1 hx
    exact hshare g hg
  set S := (gs.map share).sum with hS
  set m : ℤ → K := fun g => ((ts.filter fun t => decide (g ≤ t)).map fun t => att (g, t)).sum /
        ((ts.filter fun t => decide (g ≤ t)).length : K) with hm
  have hpg : pgOf share (product ts gs) = gs.map fun g => (g, share g / S) := by
    unfold pgOf safeNormalize
    rw [gList_product hgs htne hpos, if_neg (not_le.2 hs), List.map_map]
    have : ∀ (l : List ℤ) (f : ℤ → K), l.zip (l.map f) = l.map fun g => (g, f g) := by
      intro l f
      induction l with
      | nil => rfl
      | cons a l ih => simp only [List.map_cons, List.zip_cons_cons, ih]
    rw [this]
    rfl
  have hvalid : ((pgOf share (product ts gs)).filterMap fun p =>
      (mulGroup none (product ts gs) att p.1).map fun a => (a, p.2)) = gs.map fun g => (m g, share g / S) := by
    rw [hpg, List.filterMap_map]
    have : ∀ g ∈ gs, ((fun p : ℤ × K => (mulGroup none (product ts gs) att p.1).map fun a => (a, p.2)) ∘
        fun g => (g, share g / S)) g = some (m g, share g / S) := by
      intro g hg
      show (mulGroup none (product ts gs) att g).map _ = _
      rw [C275_group_effect hts hgs hne hsub hpos att hg]; rfl
    rw [List.filterMap_congr this, ← List.filterMap_eq_map]
    rfl
  have h1 : mulGroupOverall none share (product ts gs) att = some ((gs.map fun g => share g * m g).sum / S) := by
    unfold mulGroupOverall
    dsimp only
    rw [hvalid, if_neg (by simpa using hne), List.map_map, List.map_map]
    have e1 : ((fun q : K × K => q.1 * q.2) ∘ fun g => (m g, share g / S)) = fun g => m g * (share g / S) := rfl
    have e2 : (Prod.snd ∘ fun g => (m g, share g / S)) = fun g => share g / S := rfl
    rw [e1, e2, sum_map_mul_div gs m share S, sum_map_div_right gs share S, ← hS, div_self hs.ne', div_one]
  refine ⟨h1, ?_⟩
  obtain ⟨ws, hws, hw, _, _⟩ := C102_overall_weights ts gs share hts hgs hne hsub hpos hshare
  refine ⟨ws, hws, ?_⟩
  rw [h1, hw]
  congr 1
  rw [← sum_map_div_right]
  have hz : ∀ (f : ℤ × ℤ → K) (l : List (ℤ × ℤ)), (((l.map f).zip l).map fun p => p.1 * att p.2) =
      l.map fun c => f c * att c := by
    intro f l
    induction l with
    | nil => rfl
    | cons a l ih => simp only [List.map_cons, List.zip_cons_cons, ih]
  rw [hz, sum_product]
  congr 1
  refine List.map_congr_left fun g hg => ?_
  dsimp only
  have hf := sum_map_filter_ite ts (fun t => decide (g ≤ t))
    (fun t => share g / S / ((ts.filter fun t => decide (g ≤ t)).length : K) * att (g, t))
  have : (ts.map fun t => (if g ≤ t then share g / S / ((ts.filter fun t => decide (g ≤ t)).length : K) else 0) *
      att (g, t)) = ts.map fun t => if decide (g ≤ t) = true then
        share g / S / ((ts.filter fun t => decide (g ≤ t)).length : K) * att (g, t) else 0 := by
    refine List.map_congr_left fun t _ => ?_
    by_cases h : g ≤ t <;> simp [h]
  rw [← hS, this, ← hf, List.sum_map_mul_left, hm]
  dsimp only
  ring

end

/-- Cohorts 2 and 3 in periods 2, 3, 4: one quarter and one half of the units. -/
example : mulGroupOverall none (fun g => if g = 2 then (1:ℚ)/4 else 1/2) (product [2, 3, 4] [2, 3])
    (fun c => (c.1 * 10 + c.2 : ℤ)) = some 30 ∧
    mulGroup none (product [2, 3, 4] [2, 3]) (fun c => ((c.1 * 10 + c.2 : ℤ) : ℚ)) 2 = some 23 ∧
    mulOverall (fun g => if g = 2 then (1:ℚ)/4 else 1/2) (product [2, 3, 4] [2, 3])
      (fun c => (c.1 * 10 + c.2 : ℤ)) ≠ some 30 := by decide +kernel

/-! ## C275: balanced composition -/

section
variable {ts gs : List ℤ} (hts : ts.Pairwise (· < ·)) (hne : gs ≠ []) (hsub : ∀ g ∈ gs, g ∈ ts)
include hts hne hsub

omit hne hsub in
theorem later_length {g : ℤ} (hg : g ∈ ts) : ((ts.filter fun t => decide (g < t)).length : ℤ) =
    (ts.length : ℤ) - ((ts.idxOf g : ℤ) + 1) := by
  induction ts with
  | nil => cases hg
  | cons t ts ih =>
    obtain ⟨h1, h2⟩ := List.pairwise_cons.1 hts
    rcases List.mem_cons.1 hg with rfl | hg'
    · rw [List.filter_cons_of_neg (by simp), List.filter_eq_self.2 (fun x hx => by simpa using h1 x hx)]
      simp
    · have hlt := h1 g hg'
      rw [List.filter_cons_of_neg (by simp; omega), ih h2 hg', List.idxOf_cons_ne _ (by omega)]
      push_cast [List.length_cons]
      ring

theorem inclBalanced_iff (b : ℤ) {c : ℤ × ℤ} (hc : c ∈ product ts gs) :
    inclBalanced b (product ts gs) c = true ↔ b ≤ ((ts.filter fun t => decide (c.1 < t)).length : ℤ) := by
  obtain ⟨h1, _⟩ := mem_product.1 hc
  rw [inclBalanced, decide_eq_true_eq, toIdx_mem hts hne (hsub _ h1), maxT, levels_product hts hne,
    later_length hts (hsub _ h1)]

/-- **C275, constant composition.** With `balance_event = b`, whatever the event time `e` between 0 and `b`, the cohorts
averaged at `e` are exactly the cohorts with at least `b` evaluated periods after the one in which they are first
treated: the composition does not change along the event study. -/
theorem C275_balanced_composition (b e : ℤ) (he0 : 0 ≤ e) (heb : e ≤ b) (g : ℤ) :
    (∃ c ∈ product ts gs, c.1 = g ∧ eventIdx (product ts gs) c = e ∧ inclBalanced b (product ts gs) c = true) ↔
      g ∈ gs ∧ b ≤ ((ts.filter fun t => decide (g < t)).length : ℤ) := by
  constructor
  · rintro ⟨c, hc, rfl, _, hb⟩
    exact ⟨(mem_product.1 hc).1, (inclBalanced_iff hts hne hsub b hc).1 hb⟩
  · rintro ⟨hg, hb⟩
    have hgt := hsub g hg
    have hlen := later_length hts hgt
    rw [hlen] at hb
    have hi : ts.idxOf g + e.toNat < ts.length := by omega
    have hnd : ts.Nodup := hts.imp fun h => ne_of_lt h
    refine ⟨(g, ts[ts.idxOf g + e.toNat]), mem_product.2 ⟨hg, List.getElem_mem _⟩, rfl, ?_, ?_⟩
    · rw [eventIdx, toIdx_mem hts hne (List.getElem_mem _), toIdx_mem hts hne hgt, hnd.idxOf_getElem]
      push_cast
      omega
    · rw [inclBalanced_iff hts hne hsub b (mem_product.2 ⟨hg, List.getElem_mem _⟩), hlen]
      exact hb

/-- **C275, reported event times.** With `balance_event = b ≥ 0`, if some cohort is observed long enough then every event
time `0, …, b` inside the requested window is reported, and nothing above `b` ever is. -/
theorem C275_balanced_events (b : ℤ) (minE maxE : Option ℤ)
    (hex : ∃ g ∈ gs, b ≤ ((ts.filter fun t => decide (g < t)).length : ℤ)) :
    (∀ e, 0 ≤ e → e ≤ b → (∀ m ∈ minE, m ≤ e) → (∀ m ∈ maxE, e ≤ m) → e ∈ balEvents b minE maxE (product ts gs)) ∧
    ∀ e ∈ balEvents b minE maxE (product ts gs), e ≤ b ∧ (∀ m ∈ minE, m ≤ e) ∧ ∀ m ∈ maxE, e ≤ m := by
  have hall : ∀ (o : Option ℤ) (p : ℤ → Prop) [DecidablePred p],
      (o.all fun m => decide (p m)) = true ↔ ∀ m ∈ o, p m := by
    intro o p _; cases o <;> simp
  obtain ⟨g0, hg0, hb0⟩ := hex
  have hle : b < maxT (product ts gs) := by
    rw [later_length hts (hsub g0 hg0)] at hb0
    rw [maxT, levels_product hts hne]
    omega
  constructor
  · intro e he0 heb hmin hmax
    obtain ⟨c, hc, _, hce, hcb⟩ := (C275_balanced_composition hts hne hsub b e he0 heb g0).2 ⟨hg0, hb0⟩
    simp only [balEvents, List.mem_filter, List.mem_insertionSort, List.mem_dedup, List.mem_map, Bool.and_eq_true,
      decide_eq_true_eq, hall]
    refine ⟨⟨⟨⟨c, ⟨hc, hcb⟩, hce⟩, heb, by omega⟩, hmin⟩, hmax⟩
  · intro e he
    simp only [balEvents, List.mem_filter, Bool.and_eq_true, decide_eq_true_eq, hall] at he
    exact ⟨he.1.1.2.1, he.1.2, he.2⟩

/-- **C275, balanced effect.** With `balance_event = b`, the effect reported at an event time `e` (between 0 and `b`, or any other at
which these cohorts are all observed) is the
share-weighted average, over the cohorts with at least `b` evaluated periods after their treatment date, of the cohort's estimate
`e` evaluated periods after that date (`lag g` is that period). -/
theorem C275_balanced_effect {K : Type*} [Field K] [LinearOrder K] [IsStrictOrderedRing K] (hgs : gs.Pairwise (· < ·))
    (hpos : ∀ g ∈ gs, 0 < g) (share : ℤ → K) (hshare : ∀ g ∈ gs, 0 < share g) (att : ℤ × ℤ → K) (b e : ℤ)
    (lag : ℤ → ℤ)
    (hlag : ∀ g ∈ gs, b ≤ ((ts.filter fun t => decide (g < t)).length : ℤ) →
      lag g ∈ ts ∧ (ts.idxOf (lag g) : ℤ) = (ts.idxOf g : ℤ) + e)
    (hex : ∃ g ∈ gs, b ≤ ((ts.filter fun t => decide (g < t)).length : ℤ)) :
    balDyn b share (product ts gs) att e =
      some (((gs.filter fun g => decide (b ≤ ((ts.filter fun t => decide (g < t)).length : ℤ))).map fun g =>
          share g * att (g, lag g)).sum /
        ((gs.filter fun g => decide (b ≤ ((ts.filter fun t => decide (g < t)).length : ℤ))).map share).sum) := by
  set long : ℤ → Bool := fun g => decide (b ≤ ((ts.filter fun t => decide (g < t)).length : ℤ)) with hlong
  have hnd : ts.Nodup := hts.imp fun h => ne_of_lt h
  have hs : 0 < (gs.map share).sum := by
    refine List.sum_pos _ ?_ (by simpa using hne)
    intro x hx
    obtain ⟨g, hg, rfl⟩ := List.mem_map.1 hx
    exact hshare g hg
  have key : ∀ f : ℤ × ℤ → K, (((product ts gs).filter fun c =>
      decide (eventIdx (product ts gs) c = e) && inclBalanced b (product ts gs) c).map f).sum =
      ((gs.filter long).map fun g => f (g, lag g)).sum := by
    intro f
    rw [List.filter_congr (q := fun c => long c.1 && decide (c.2 = lag c.1)), sum_map_filter_ite, sum_product, sum_map_filter_ite]
    · congr 1
      refine List.map_congr_left fun g hg => ?_
      dsimp only
      by_cases hl : long g = true
      · simp only [hl, Bool.true_and, decide_eq_true_eq, if_true]
        have hm := (hlag g hg (by simpa [hlong] using hl)).1
        have h1 : ts.filter (fun t => decide (t = lag g)) = [lag g] := by
          have h1 : ts.filter (fun x => x == lag g) = [lag g] := by
            rw [List.filter_beq, List.count_eq_one_of_mem hnd hm]; rfl
          rw [← h1]
          exact List.filter_congr fun x _ => (beq_eq_decide x _).symm
        have h2 := sum_map_filter_ite ts (fun t => decide (t = lag g)) (fun t => f (g, t))
        rw [h1] at h2
        simp only [decide_eq_true_eq] at h2
        rw [← h2]
        simp
      · simp [hl]
    · intro c hc
      obtain ⟨h1, h2⟩ := mem_product.1 hc
      have hb := inclBalanced_iff hts hne hsub b hc
      rw [Bool.eq_iff_iff, Bool.and_eq_true, Bool.and_eq_true, hb, decide_eq_true_eq, eventIdx, @decide_eq_true_eq (c.2 = lag c.1),
        toIdx_mem hts hne h2, toIdx_mem hts hne (hsub _ h1)]
      constructor
      · rintro ⟨h3, h4⟩
        refine ⟨by simpa [hlong] using h4, ?_⟩
        obtain ⟨hm, hi⟩ := hlag _ h1 h4
        exact (List.idxOf_inj h2).1 (by omega)
      · rintro ⟨h3, h4⟩
        have h3' : b ≤ ((ts.filter fun t => decide (c.1 < t)).length : ℤ) := by simpa [hlong] using h3
        obtain ⟨hm, hi⟩ := hlag _ h1 h3'
        rw [h4]
        exact ⟨by omega, h3'⟩
  have hden : 0 < ((gs.filter long).map share).sum := by
    obtain ⟨g, hg, hb⟩ := hex
    refine List.sum_pos _ ?_ ?_
    · intro x hx
      obtain ⟨g, hg, rfl⟩ := List.mem_map.1 hx
      exact hshare g (List.mem_filter.1 hg).1
    · simp only [ne_eq, List.map_eq_nil_iff]
      exact List.ne_nil_of_mem (List.mem_filter.2 ⟨hg, by simpa [hlong] using hb⟩)
  unfold balDyn
  rw [aggSel_product hts hgs hne hsub hpos share hs att _ (by rw [key fun c => share c.1]; exact hden), key, key fun c => share c.1]

/-- **C275, violated before treatment.** At negative event times the composition does change: with periods 1 to 4,
cohorts 2 and 3 and `balance_event = 1`, event time −1 averages both cohorts and event time −2, which is reported, only
cohort 3. -/
theorem C275_pre_composition_violated :
    balEvents 1 none none (product [1, 2, 3, 4] [2, 3]) = [-2, -1, 0, 1] ∧
    ((product [1, 2, 3, 4] [2, 3]).filter fun c => decide (eventIdx (product [1, 2, 3, 4] [2, 3]) c = -1) &&
      inclBalanced 1 (product [1, 2, 3, 4] [2, 3]) c).map Prod.fst = [2, 3] ∧
    ((product [1, 2, 3, 4] [2, 3]).filter fun c => decide (eventIdx (product [1, 2, 3, 4] [2, 3]) c = -2) &&
      inclBalanced 1 (product [1, 2, 3, 4] [2, 3]) c).map Prod.fst = [3] := by decide +kernel

end

example : balEvents 2 none none (product [1, 2, 3, 4] [2, 3]) = [-1, 0, 1, 2] ∧
    balEvents 2 (some 0) (some 1) (product [1, 2, 3, 4] [2, 3]) = [0, 1] ∧
    balDyn 2 (fun _ => (1:ℚ)) (product [1, 2, 3, 4] [2, 3]) (fun c => (c.1 * 10 + c.2 : ℤ)) 2 = some 24 := by decide +kernel

/-- Periods 1 to 4, cohorts 2 and 3, `balance_event = 1`: both cohorts are observed long enough. -/
example : (∀ g ∈ [2, 3], (1:ℤ) ≤ (([1, 2, 3, 4].filter fun t => decide (g < t)).length : ℤ) →
      g + 1 ∈ [1, 2, 3, (4:ℤ)] ∧ (([1, 2, 3, (4:ℤ)].idxOf (g + 1) : ℕ) : ℤ) = (([1, 2, 3, 4].idxOf g : ℕ) : ℤ) + 1) ∧
    balDyn 1 (fun _ => (1:ℚ)) (product [1, 2, 3, 4] [2, 3]) (fun c => (c.1 * 10 + c.2 : ℤ)) 1 = some (57 / 2) := by
  decide +kernel

/-! ## C275: critical value -/

section
variable [Field K] [LinearOrder K] [IsStrictOrderedRing K]

/-- **C275, the band is never narrower than the pointwise interval**, whatever the bootstrap returns, and it uses the
bootstrap value whenever that is finite and at least the pointwise one. -/
theorem C275_band_contains_pointwise (z : K) (boot : Option K) (est se : K) (hse : 0 ≤ se) :
    Set.Icc (est - z * se) (est + z * se) ⊆ Set.Icc (est - checkCrit z boot * se) (est + checkCrit z boot * se) ∧
      ∀ v, boot = some v → z ≤ v → checkCrit z boot = v := by
  have hle : z ≤ checkCrit z boot := by
    cases boot with
    | none => exact le_rfl
    | some v =>
      simp only [checkCrit]
      split_ifs with h
      · exact le_rfl
      · exact not_lt.1 h
  have := mul_le_mul_of_nonneg_right hle hse
  refine ⟨Set.Icc_subset_Icc (by linarith) (by linarith), ?_⟩
  rintro v rfl hv
  simp only [checkCrit, if_neg (not_lt.2 hv)]

example : checkCrit (2:ℚ) none = 2 ∧ checkCrit (2:ℚ) (some 1) = 2 ∧ checkCrit (2:ℚ) (some 3) = 3 := by decide +kernel

end

end Verif.Cont
