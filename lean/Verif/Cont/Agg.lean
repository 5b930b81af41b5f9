import Verif.Cont.AggModel
import Verif.Agg.Deriv
import Mathlib.Data.List.GetD
import Mathlib.Tactic.FieldSimp
import Mathlib.Tactic.Linarith

set_option linter.unusedSectionVars false
set_option linter.unusedSimpArgs false

/-! # Continuous treatment: aggregation (C102-C104) -/

namespace Verif.Cont

variable {ι K : Type*}

lemma list_sum_map_div {K : Type*} [Field K] (l : List ℤ) (f : ℤ → K) (c : K) : (l.map fun k => f k / c).sum = (l.map f).sum / c := by
  induction l with
  | nil => simp
  | cons a l ih => simp [ih, add_div]

/-! ### C102: overall weights -/

/-- The cells visited for periods `ts` and cohorts `gs` (periods outermost), as `compute_pte` orders them. -/
def product (ts gs : List ℤ) : List (ℤ × ℤ) := ts.flatMap fun t => gs.map fun g => (g, t)

lemma mem_product {ts gs : List ℤ} {c : ℤ × ℤ} : c ∈ product ts gs ↔ c.1 ∈ gs ∧ c.2 ∈ ts := by
  unfold product
  simp only [List.mem_flatMap, List.mem_map]
  constructor
  · rintro ⟨t, ht, g, hg, rfl⟩; exact ⟨hg, ht⟩
  · rintro ⟨hg, ht⟩; exact ⟨c.2, ht, c.1, hg, rfl⟩

lemma sort_distinct_eq {l s : List ℤ} (hs : s.Pairwise (· < ·)) (h : ∀ x, x ∈ l ↔ x ∈ s) :
    l.dedup.insertionSort (· ≤ ·) = s := by
  have h1 : (l.dedup.insertionSort (· ≤ ·)).Pairwise (· ≤ ·) := List.pairwise_insertionSort _ _
  have hp : (l.dedup.insertionSort (· ≤ ·)).Perm s := by
    refine (List.perm_insertionSort _ _).trans ?_
    rw [List.perm_ext_iff_of_nodup (List.nodup_dedup l) (hs.imp fun h => ne_of_lt h)]
    intro x; rw [List.mem_dedup, h]
  exact hp.eq_of_pairwise (fun a b _ _ h1 h2 => le_antisymm h1 h2) h1 (hs.imp fun h => le_of_lt h)

lemma levels_product {ts gs : List ℤ} (hts : ts.Pairwise (· < ·)) (hgs : gs ≠ []) :
    levels (product ts gs) = ts := by
  refine sort_distinct_eq hts fun x => ?_
  simp only [List.mem_map]
  constructor
  · rintro ⟨c, hc, rfl⟩; exact (mem_product.1 hc).2
  · intro hx
    obtain ⟨g, hg⟩ := List.exists_mem_of_ne_nil gs hgs
    exact ⟨(g, x), mem_product.2 ⟨hg, hx⟩, rfl⟩

lemma gList_product {ts gs : List ℤ} (hgs : gs.Pairwise (· < ·)) (hts : ts ≠ []) (hpos : ∀ g ∈ gs, 0 < g) :
    gListOf (product ts gs) = gs := by
  refine sort_distinct_eq hgs fun x => ?_
  simp only [List.mem_filter, List.mem_map, decide_eq_true_eq]
  constructor
  · rintro ⟨⟨c, hc, rfl⟩, _⟩; exact (mem_product.1 hc).1
  · intro hx
    obtain ⟨t, ht⟩ := List.exists_mem_of_ne_nil ts hts
    exact ⟨⟨(x, t), mem_product.2 ⟨hx, ht⟩, rfl⟩, hpos x hx⟩

lemma idxOf_lt_iff {ts : List ℤ} (hts : ts.Pairwise (· < ·)) {a b : ℤ} (ha : a ∈ ts) (hb : b ∈ ts) :
    ts.idxOf a < ts.idxOf b ↔ a < b := by
  have hla := List.idxOf_lt_length_of_mem ha
  have hlb := List.idxOf_lt_length_of_mem hb
  have ea : ts[ts.idxOf a] = a := List.getElem_idxOf hla
  have eb : ts[ts.idxOf b] = b := List.getElem_idxOf hlb
  constructor
  · intro h
    have := (List.pairwise_iff_getElem.1 hts) _ _ hla hlb h
    rwa [ea, eb] at this
  · intro h
    by_contra hc
    rcases Nat.lt_or_eq_of_le (not_lt.1 hc) with h2 | h2
    · have := (List.pairwise_iff_getElem.1 hts) _ _ hlb hla h2
      rw [ea, eb] at this
      exact absurd this (not_lt.2 h.le)
    · have : a = b := (List.idxOf_inj ha).1 h2.symm
      exact absurd h (by rw [this]; exact lt_irrefl _)

section
variable {ts gs : List ℤ} (hts : ts.Pairwise (· < ·)) (hgs : gs.Pairwise (· < ·)) (hne : gs ≠ [])
  (hsub : ∀ g ∈ gs, g ∈ ts) (hpos : ∀ g ∈ gs, 0 < g)
include hts hne

lemma toIdx_mem {v : ℤ} (hv : v ∈ ts) : toIdx (product ts gs) v = (ts.idxOf v : ℤ) + 1 := by
  unfold toIdx
  rw [levels_product hts hne, if_pos hv]

lemma toIdx_le {a b : ℤ} (ha : a ∈ ts) (hb : b ∈ ts) :
    toIdx (product ts gs) a ≤ toIdx (product ts gs) b ↔ a ≤ b := by
  rw [toIdx_mem hts hne ha, toIdx_mem hts hne hb]
  have := idxOf_lt_iff hts hb ha
  constructor
  · intro h; by_contra hc; have := this.2 (not_le.1 hc); omega
  · intro h; by_contra hc; have := this.1 (by omega); omega

lemma toIdx_inj {a b : ℤ} (ha : a ∈ ts) (hb : b ∈ ts) :
    toIdx (product ts gs) a = toIdx (product ts gs) b ↔ a = b := by
  constructor
  · intro h
    exact le_antisymm ((toIdx_le hts hne ha hb).1 h.le) ((toIdx_le hts hne hb ha).1 h.ge)
  · rintro rfl; rfl

include hsub

lemma keeper_product {c : ℤ × ℤ} (hc : c ∈ product ts gs) : keeper none (product ts gs) c = decide (c.1 ≤ c.2) := by
  obtain ⟨h1, h2⟩ := mem_product.1 hc
  unfold keeper
  simp only [Option.all_none, Bool.and_true]
  exact decide_eq_decide.2 (toIdx_le hts hne (hsub _ h1) h2)

lemma isThis_product {g : ℤ} (hg : g ∈ gs) {c : ℤ × ℤ} (hc : c ∈ product ts gs) :
    isThis none (product ts gs) g c = (decide (c.1 = g) && decide (g ≤ c.2)) := by
  obtain ⟨h1, h2⟩ := mem_product.1 hc
  unfold isThis
  simp only [Option.getD_none]
  have hlast : toIdx (product ts gs) c.2 ≤ toIdx (product ts gs) c.1 + maxT (product ts gs) := by
    rw [toIdx_mem hts hne h2, toIdx_mem hts hne (hsub _ h1)]
    unfold maxT
    rw [levels_product hts hne]
    have := List.idxOf_lt_length_of_mem h2
    omega
  rw [decide_eq_true hlast, Bool.and_true, decide_eq_decide.2 (toIdx_inj hts hne (hsub _ h1) (hsub _ hg)),
    decide_eq_decide.2 (toIdx_le hts hne (hsub _ hg) h2)]

include hgs

omit hne hsub in
lemma count_product (g : ℤ) (hg : g ∈ gs) (q : ℤ → Bool) :
    (product ts gs).countP (fun c => decide (c.1 = g) && q c.2) = ts.countP q := by
  unfold product
  have hn : gs.Nodup := hgs.imp fun h => ne_of_lt h
  induction ts with
  | nil => rfl
  | cons t ts ih =>
    rw [List.flatMap_cons, List.countP_append, ih (List.pairwise_cons.1 hts).2, List.countP_cons, List.countP_map]
    have : List.countP ((fun c : ℤ × ℤ => decide (c.1 = g) && q c.2) ∘ fun g => (g, t)) gs = if q t = true then 1 else 0 := by
      have e : ((fun c : ℤ × ℤ => decide (c.1 = g) && q c.2) ∘ fun g => (g, t)) = fun x => decide (x = g) && q t := by
        funext x; rfl
      rw [e]
      cases hq : q t
      · simp
      · simp only [Bool.and_true, if_true]
        have := List.count_eq_one_of_mem hn hg
        rw [← this]
        unfold List.count
        congr 1
    rw [this]; omega

end

section
variable [Field K] [LinearOrder K] [IsStrictOrderedRing K]

/-- Sum of `f` over all cells, grouped by cohort. -/
lemma sum_product (ts gs : List ℤ) (f : ℤ × ℤ → K) :
    ((product ts gs).map f).sum = (gs.map fun g => (ts.map fun t => f (g, t)).sum).sum := by
  unfold product
  induction ts with
  | nil => simp
  | cons t ts ih =>
    rw [List.flatMap_cons, List.map_append, List.sum_append, ih, List.map_map]
    simp only [List.map_cons, List.sum_cons]
    rw [← List.sum_map_add]
    rfl

lemma sum_ite_const (ts : List ℤ) (q : ℤ → Bool) (x : K) :
    (ts.map fun t => if q t = true then x else 0).sum = (ts.countP q : K) * x := by
  induction ts with
  | nil => simp
  | cons t ts ih =>
    rw [List.map_cons, List.sum_cons, ih, List.countP_cons]
    by_cases h : q t = true
    · simp [h]; ring
    · simp [h]

lemma zip_filter_getLast {gs : List ℤ} (hn : gs.Nodup) {g : ℤ} (hg : g ∈ gs) (f : ℤ → K) :
    ((gs.zip (gs.map f)).filter fun p => decide (p.1 = g)) = [(g, f g)] := by
  induction gs with
  | nil => simp at hg
  | cons x xs ih =>
    obtain ⟨hx, hn'⟩ := List.nodup_cons.1 hn
    rw [List.map_cons, List.zip_cons_cons, List.filter_cons]
    by_cases h : x = g
    · subst h
      have : ((xs.zip (xs.map f)).filter fun p => decide (p.1 = x)) = [] := by
        rw [List.filter_eq_nil_iff]
        rintro ⟨a, b⟩ hab
        have := (List.of_mem_zip hab).1
        simp only [decide_eq_true_eq]
        rintro rfl; exact hx this
      simp [this]
    · simp only [h, decide_false, Bool.false_eq_true, if_false]
      exact ih hn' ((List.mem_cons.1 hg).resolve_left (Ne.symm h))

/-- **C102.** For the cells of `cont_did` (every cohort in every evaluated period, each cohort being an evaluated period) and
positive cohort shares, the overall weight of a cell `(g, t)` is the cohort's share among treated cohorts divided by the number
of evaluated periods from `g` on if `t ≥ g`, and zero otherwise; the weights are nonnegative and sum to one. -/
theorem C102_overall_weights (ts gs : List ℤ) (share : ℤ → K) (hts : ts.Pairwise (· < ·)) (hgs : gs.Pairwise (· < ·))
    (hne : gs ≠ []) (hsub : ∀ g ∈ gs, g ∈ ts) (hpos : ∀ g ∈ gs, 0 < g) (hshare : ∀ g ∈ gs, 0 < share g) :
    ∃ ws, overallWeights none share (product ts gs) = some ws ∧
      ws = (product ts gs).map (fun c => if c.1 ≤ c.2 then
        share c.1 / (gs.map share).sum / ((ts.filter fun t => c.1 ≤ t).length : K) else 0) ∧
      (∀ w ∈ ws, 0 ≤ w) ∧ ws.sum = 1 := by
  have htne : ts ≠ [] := by
    obtain ⟨g, hg⟩ := List.exists_mem_of_ne_nil gs hne
    exact List.ne_nil_of_mem (hsub g hg)
  have hn : gs.Nodup := hgs.imp fun h => ne_of_lt h
  have hsum : 0 < (gs.map share).sum := by
    refine List.sum_pos _ ?_ (by simpa using hne)
    intro x hx
    obtain ⟨g, hg, rfl⟩ := List.mem_map.1 hx
    exact hshare g hg
  have hcount : ∀ g ∈ gs, (0 : K) < ((ts.filter fun t => g ≤ t).length : K) := by
    intro g hg
    have : 0 < (ts.filter fun t => g ≤ t).length :=
      List.length_pos_of_mem (List.mem_filter.2 ⟨hsub g hg, by simp⟩)
    exact_mod_cast this
  have hraw : rawWeights none share (product ts gs) = (product ts gs).map (fun c => if c.1 ≤ c.2 then
        share c.1 / (gs.map share).sum / ((ts.filter fun t => c.1 ≤ t).length : K) else 0) := by
    unfold rawWeights
    refine List.map_congr_left fun c hc => ?_
    obtain ⟨h1, h2⟩ := mem_product.1 hc
    rw [keeper_product hts hne hsub hc]
    have hpg : ((pgOf share (product ts gs)).filter fun p => decide (toIdx (product ts gs) p.1 = toIdx (product ts gs) c.1)) =
        [(c.1, share c.1 / (gs.map share).sum)] := by
      unfold pgOf safeNormalize
      rw [gList_product hgs htne hpos, if_neg (not_le.2 hsum), List.map_map]
      rw [← zip_filter_getLast hn h1 (fun g => share g / (gs.map share).sum)]
      refine List.filter_congr ?_
      rintro ⟨a, b⟩ hab
      have ha := (List.of_mem_zip hab).1
      exact decide_eq_decide.2 (toIdx_inj hts hne (hsub a ha) (hsub _ h1))
    have hcnt : (product ts gs).countP (isThis none (product ts gs) c.1) = (ts.filter fun t => c.1 ≤ t).length := by
      rw [List.countP_congr (fun x hx => by rw [isThis_product hts hne hsub h1 hx]),
        count_product hts hgs c.1 h1 (fun t => decide (c.1 ≤ t)), List.countP_eq_length_filter]
    unfold groupToWeight
    rw [hpg]
    simp only [List.getLast?_singleton, Option.map_some, Option.getD_some, gWeight, hcnt]
    have : (ts.filter fun t => c.1 ≤ t).length ≠ 0 := by
      have := hcount c.1 h1
      intro h0; rw [h0] at this; simp at this
    rw [if_neg this]
    by_cases hle : c.1 ≤ c.2 <;> simp [hle]
  have htotal : (rawWeights none share (product ts gs)).sum = 1 := by
    rw [hraw, sum_product]
    have : (gs.map fun g => (ts.map fun t => if (g, t).1 ≤ (g, t).2 then
        share (g, t).1 / (gs.map share).sum / ((ts.filter fun t' => (g, t).1 ≤ t').length : K) else 0).sum) =
        gs.map fun g => share g / (gs.map share).sum := by
      refine List.map_congr_left fun g hg => ?_
      have h := sum_ite_const ts (fun t => decide (g ≤ t)) (share g / (gs.map share).sum / ((ts.filter fun t' => g ≤ t').length : K))
      simp only [decide_eq_true_eq] at h
      dsimp only
      rw [h, List.countP_eq_length_filter, mul_div_cancel₀ _ (hcount g hg).ne']
    rw [this]
    rw [list_sum_map_div, div_self hsum.ne']
  refine ⟨_, ?_, hraw, ?_, htotal⟩
  · simp only [overallWeights, htotal, if_true]
  · intro w hw
    rw [hraw] at hw
    obtain ⟨c, hc, rfl⟩ := List.mem_map.1 hw
    split_ifs
    · exact div_nonneg (div_nonneg (hshare _ (mem_product.1 hc).1).le hsum.le) (Nat.cast_nonneg _)
    · exact le_rfl

example : overallWeights none (fun g => if g = 2 then (1:ℚ)/4 else 1/2) (product [2, 3, 4] [2, 3]) =
    some [1/9, 0, 1/9, 1/3, 1/9, 1/3] := by decide +kernel

/-! ### C103: cells without results -/

/-- **C103.** If every cell has results, the overall effect and the combination of a curve agree: when all weights sum to one
both are the weighted average of the cells. -/
theorem C103_complete (ws : List K) (atts : List K) (hlen : ws.length = atts.length) (hsum : ws.sum = 1) :
    nansumOverall ws (atts.map some) = ((ws.zip atts).map fun p => p.1 * p.2).sum ∧
      combineCurve ws (atts.map some) = ((ws.zip atts).map fun p => p.1 * p.2).sum := by
  have hz : ws.zip (atts.map some) = (ws.zip atts).map fun p => (p.1, some p.2) := by
    rw [List.zip_map_right]; rfl
  have hav : available ws (atts.map some) = ws.zip atts := by
    unfold available
    rw [hz, List.filterMap_map]
    have : ((fun p : K × Option K => p.2.map fun a => (p.1, a)) ∘ fun p : K × K => (p.1, some p.2)) = some := by
      funext p; rfl
    rw [this, List.filterMap_some]
  refine ⟨?_, ?_⟩
  · unfold nansumOverall
    rw [hz, List.map_map]; rfl
  · unfold combineCurve
    rw [hav, List.map_fst_zip (le_of_eq hlen), hsum]
    simp

/-- **C103 (violated).** If every cell that has results reports the same effect `a`, the dose curve reports `a`, but the
overall effect is `a` times the total weight of the cells with results: cells that could not be estimated pull the overall
effect towards zero. -/
theorem C103_dilution_violated (ws : List K) (atts : List (Option K)) (a : K)
    (ha : ∀ x ∈ atts, x = none ∨ x = some a) (hw : ((available ws atts).map Prod.fst).sum ≠ 0) :
    combineCurve ws atts = a ∧ nansumOverall ws atts = ((available ws atts).map Prod.fst).sum * a := by
  have hav : ∀ p ∈ available ws atts, p.2 = a := by
    intro p hp
    unfold available at hp
    obtain ⟨q, hq, h⟩ := List.mem_filterMap.1 hp
    obtain ⟨x, hx, rfl⟩ := Option.map_eq_some_iff.1 h
    rcases ha q.2 (List.of_mem_zip hq).2 with h1 | h1
    · rw [h1] at hx; simp at hx
    · rw [h1] at hx; exact (Option.some.inj hx).symm
  refine ⟨?_, ?_⟩
  · unfold combineCurve
    have : ((available ws atts).map fun p => p.1 / ((available ws atts).map Prod.fst).sum * p.2) =
        ((available ws atts).map Prod.fst).map fun x => x * (a / ((available ws atts).map Prod.fst).sum) := by
      rw [List.map_map]
      refine List.map_congr_left fun p hp => ?_
      rw [hav p hp]; simp only [Function.comp]; ring
    rw [this, List.sum_map_mul_right]
    simp only [List.map_id']
    field_simp
  · clear hw hav
    unfold nansumOverall available
    generalize hz : ws.zip atts = z
    have hz' : ∀ p ∈ z, p.2 = none ∨ p.2 = some a := by
      intro p hp; rw [← hz] at hp; exact ha _ (List.of_mem_zip hp).2
    clear hz ha
    induction z with
    | nil => simp
    | cons p z ih =>
      have ih := ih fun q hq => hz' q (List.mem_cons_of_mem _ hq)
      rw [List.map_cons, List.sum_cons, ih, List.filterMap_cons]
      rcases hz' p (by simp) with h | h
      · simp [h]
      · simp [h]; ring

example : nansumOverall [1/2, 1/2] [some (4:ℚ), none] = 2 ∧ combineCurve [1/2, 1/2] [some (4:ℚ), none] = 4 := by
  decide +kernel

end

/-! ### C104: influence of estimated cohort shares -/

section
variable [Fintype ι] [DecidableEq ι]

/-- The weight of cohort `g` among the selected cells' cohorts `ks`. -/
noncomputable def relShare (G : ι → WithTop ℤ) (w : ι → ℝ) (ks : List ℤ) (g : ℤ) : ℝ :=
  Agg.share G w g / (ks.map (Agg.share G w)).sum

lemma list_sum_map_sub {K : Type*} [Field K] (l : List ℤ) (f g : ℤ → K) :
    (l.map fun k => f k - g k).sum = (l.map f).sum - (l.map g).sum := by
  induction l with
  | nil => simp
  | cons a l ih => simp only [List.map_cons, List.sum_cons, ih]; ring

/-- The true derivative of a relative cohort share in the weight of unit `i`. -/
theorem relShare_deriv (G : ι → WithTop ℤ) (w : ι → ℝ) (ks : List ℤ) (g : ℤ) (i : ι)
    (hS : (ks.map (Agg.share G w)).sum ≠ 0) :
    HasDerivAt (fun t => relShare G (DR.upw w i t) ks g)
      (w i * (if G i = (g : WithTop ℤ) then 1 else 0) / (ks.map (Agg.share G w)).sum -
        Agg.share G w g * (ks.map fun k : ℤ => w i * (if G i = (k : WithTop ℤ) then 1 else 0)).sum /
          (ks.map (Agg.share G w)).sum ^ 2) 0 := by
  unfold relShare
  have h1 := Agg.share_deriv G w i g
  have h2 := Agg.list_sum_deriv ks (fun k t => Agg.share G (DR.upw w i t) k)
    (fun k => if G i = (k : WithTop ℤ) then w i else 0) (fun k _ => Agg.share_deriv G w i k)
  have h0 : (ks.map fun k => Agg.share G (DR.upw w i 0) k).sum ≠ 0 := by rw [DR.upw_zero]; exact hS
  have h := h1.fun_div h2 h0
  refine h.congr_deriv ?_
  rw [DR.upw_zero]
  have e : ∀ k : ℤ, (if G i = (k : WithTop ℤ) then w i else 0) = w i * (if G i = (k : WithTop ℤ) then 1 else 0) := by
    intro k; split_ifs <;> ring
  simp only [e]
  change (w i * (if G i = (g : WithTop ℤ) then 1 else 0) * (ks.map (Agg.share G w)).sum - _) / _ = _
  field_simp

/-- **C104 (violated).** The aggregation weights are cohort shares among the treated.  The influence term the code adds for
estimating them is the true derivative multiplied by the share of treated units `P` — too small whenever some units are never
treated. -/
theorem C104_share_influence_violated (G : ι → WithTop ℤ) (w : ι → ℝ) (gs ks : List ℤ) (g : ℤ) (i : ι)
    (hP : (gs.map (Agg.share G w)).sum ≠ 0) (hS : (ks.map (Agg.share G w)).sum ≠ 0) :
    ∃ d, HasDerivAt (fun t => relShare G (DR.upw w i t) ks g) d 0 ∧
      wifEntry (fun k => Agg.share G w k / (gs.map (Agg.share G w)).sum) ks (w i) (G i) g =
        (gs.map (Agg.share G w)).sum * d := by
  refine ⟨_, relShare_deriv G w ks g i hS, ?_⟩
  unfold wifEntry
  rw [list_sum_map_div, list_sum_map_sub, list_sum_map_div]
  set P := (gs.map (Agg.share G w)).sum
  set S := (ks.map (Agg.share G w)).sum
  field_simp
  ring

/-- Two treated units of cohorts 2 and 3 among four. -/
example : ∃ (G : Fin 4 → WithTop ℤ) (w : Fin 4 → ℝ), ([2, 3].map (Agg.share G w)).sum = 1 / 2 := by
  refine ⟨![((2 : ℤ) : WithTop ℤ), ((3 : ℤ) : WithTop ℤ), ⊤, ⊤], fun _ => 1, ?_⟩
  simp only [List.map_cons, List.map_nil, List.sum_cons, List.sum_nil, Agg.share, Fin.sum_univ_four]
  have h1 : ((3:ℤ) : WithTop ℤ) ≠ ((2:ℤ) : WithTop ℤ) := by decide
  have h2 : ((2:ℤ) : WithTop ℤ) ≠ ((3:ℤ) : WithTop ℤ) := by decide
  simp [h1, h2]
  norm_num

end

end Verif.Cont
