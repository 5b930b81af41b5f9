import Verif.DR.EntryProps
import Verif.DR.RC
import Mathlib.Algebra.BigOperators.Fin

set_option linter.unusedSectionVars false
set_option linter.unusedSimpArgs false

/-!
# The two-period entry points on repeated cross-sections: C219, C220
-/

namespace Verif.DR.Entry

open Verif.Panel Verif.Valid Verif.DR

variable {ι κ K : Type*} [LinearOrder ι] [Fintype κ] [Field K] [LinearOrder K] [IsStrictOrderedRing K]

/-! ## Specification -/

/-- The rows without nulls of arm `a` in period `t`, read off the user's frame. -/
def cellRows (df : List (Row ι ℤ (Obs κ K))) (a t : ℤ) : List (Vals κ K) :=
  df.filterMap fun r => if r.val.d = a ∧ r.t = t then r.val.v else none

/-- Weighted mean outcome of a list of rows. -/
def meanY (l : List (Vals κ K)) : K := (l.map fun v => v.w * v.y).sum / (l.map fun v => v.w).sum

/-- Four-mean difference-in-differences of the frame. -/
def frameDid (df : List (Row ι ℤ (Obs κ K))) (t0 t1 : ℤ) : K :=
  (meanY (cellRows df 1 t1) - meanY (cellRows df 1 t0)) - (meanY (cellRows df 0 t1) - meanY (cellRows df 0 t0))

/-- Treated share of the weight of the rows without nulls. -/
def rowShare (df : List (Row ι ℤ (Obs κ K))) (t0 t1 : ℤ) : K :=
  let tot := fun a t => ((cellRows df a t).map fun v => v.w).sum
  (tot 1 t0 + tot 1 t1) / (tot 1 t0 + tot 1 t1 + (tot 0 t0 + tot 0 t1))

/-- A two-period repeated cross-section: two periods, binary treatment, non-negative weights, each of the four cells has
rows without nulls of positive total weight. -/
structure RCFrame (df : List (Row ι ℤ (Obs κ K))) (t0 t1 : ℤ) : Prop where
  lt : t0 < t1
  times : ∀ r ∈ df, r.t = t0 ∨ r.t = t1
  treat : ∀ r ∈ df, r.val.d = 0 ∨ r.val.d = 1
  nonneg : ∀ r ∈ df, ∀ v, r.val.v = some v → 0 ≤ v.w
  cells : ∀ a t : ℤ, (a = 0 ∨ a = 1) → (t = t0 ∨ t = t1) → 0 < ((cellRows df a t).map fun v => v.w).sum

/-! ## Sums over the arrays are sums over the frame -/

lemma sum_fin_filter {A : Type*} (l : List A) (p : A → Prop) [DecidablePred p] (g : A → K) :
    ∑ i : Fin l.length with p (l[i]), g (l[i]) = (l.map fun a => if p a then g a else 0).sum := by
  rw [Finset.sum_filter]
  exact Fin.sum_univ_fun_getElem l (fun a => if p a then g a else 0)

lemma sum_filterMap {A B : Type*} (l : List A) (h : A → Option B) (g : B → K) :
    ((l.filterMap h).map g).sum = (l.map fun a => match h a with | none => 0 | some b => g b).sum := by
  induction l with
  | nil => rfl
  | cons a l ih =>
    cases e : h a with
    | none => simp [List.filterMap_cons, e, ih]
    | some b => simp [List.filterMap_cons, e, ih]

/-- The prepared rows of a repeated cross-section. -/
def prepRC (df : List (Row ι ℤ (Obs κ K))) : List (Row ι ℤ (Full κ K)) := normW (df.filterMap full?)

lemma sum_cell {df : List (Row ι ℤ (Obs κ K))} {t0 t1 : ℤ} (h : RCFrame df t0 t1) (a b : Bool) (g : K → K → K) :
    ∑ i : Fin (prepRC df).length with (decide (((prepRC df)[i]).val.d = 1) = a ∧ decide (((prepRC df)[i]).t = t1) = b),
      g ((prepRC df)[i]).val.w ((prepRC df)[i]).val.y =
    ((cellRows df (if a then 1 else 0) (if b then t1 else t0)).map
      fun v => g (v.w / meanW (df.filterMap full?)) v.y).sum := by
  rw [sum_fin_filter (prepRC df) (fun r => decide (r.val.d = 1) = a ∧ decide (r.t = t1) = b) (fun r => g r.val.w r.val.y)]
  unfold prepRC normW
  rw [List.map_map, sum_filterMap]
  unfold cellRows
  rw [sum_filterMap]
  congr 1
  apply List.map_congr_left
  intro r hr
  unfold full?
  cases hv : r.val.v with
  | none => simp [hv]
  | some v =>
    have h1 := h.times r hr
    have h2 := h.treat r hr
    have hne := h.lt.ne
    have key : (decide (r.val.d = 1) = a ∧ decide (r.t = t1) = b) ↔
        (r.val.d = (if a then 1 else 0) ∧ r.t = if b then t1 else t0) := by
      rcases h1 with h1 | h1 <;> rcases h2 with h2 | h2 <;> cases a <;> cases b <;> simp [h1, h2, hne, hne.symm]
    by_cases hc : r.val.d = (if a then 1 else 0) ∧ r.t = if b then t1 else t0
    · rw [if_pos hc]
      simp only [Option.map_some, Function.comp, hv]
      rw [if_pos (key.2 hc)]
    · rw [if_neg hc]
      simp only [Option.map_some, Function.comp]
      rw [if_neg (fun hh => hc (key.1 hh))]

lemma exists_of_sum_pos {A : Type*} {l : List A} {g : A → K} (h : 0 < (l.map g).sum) : ∃ a, a ∈ l := by
  cases l with
  | nil => simp at h
  | cons a l => exact ⟨a, by simp⟩

lemma RCFrame.row {df : List (Row ι ℤ (Obs κ K))} {t0 t1 : ℤ} (h : RCFrame df t0 t1) {a t : ℤ} (ha : a = 0 ∨ a = 1)
    (ht : t = t0 ∨ t = t1) : ∃ r ∈ df, r.val.d = a ∧ r.t = t ∧ ∃ v, r.val.v = some v := by
  obtain ⟨v, hv⟩ := exists_of_sum_pos (h.cells a t ha ht)
  unfold cellRows at hv
  rw [List.mem_filterMap] at hv
  obtain ⟨r, hr, hrv⟩ := hv
  split_ifs at hrv with hc
  exact ⟨r, hr, hc.1, hc.2, v, hrv⟩

lemma sortedTimes_two {B : Type*} {df : List (Row ι ℤ B)} {t0 t1 : ℤ} (hlt : t0 < t1)
    (hall : ∀ r ∈ df, r.t = t0 ∨ r.t = t1) (h0 : ∃ r ∈ df, r.t = t0) (h1 : ∃ r ∈ df, r.t = t1) :
    sortedTimes df = [t0, t1] := by
  unfold sortedTimes
  have hp : ((df.map Row.t).dedup).Perm [t0, t1] := by
    rw [List.perm_ext_iff_of_nodup (List.nodup_dedup _) (by simp [hlt.ne])]
    intro t
    rw [List.mem_dedup, List.mem_map]
    simp only [List.mem_cons, List.not_mem_nil, or_false]
    constructor
    · rintro ⟨r, hr, rfl⟩; exact hall r hr
    · rintro (rfl | rfl)
      · exact h0
      · exact h1
  have hs : List.Pairwise (· ≤ ·) [t0, t1] := by simp [hlt.le]
  exact ((List.perm_insertionSort _ _).trans hp).eq_of_pairwise (fun a b _ _ h h' => le_antisymm h h')
    (List.pairwise_insertionSort _ _) hs

lemma mem_prepRC {df : List (Row ι ℤ (Obs κ K))} {r : Row ι ℤ (Full κ K)} :
    r ∈ prepRC df ↔ ∃ s ∈ df, ∃ v, s.val.v = some v ∧
      r = ⟨s.id, s.t, ⟨s.val.d, v.y, v.w / meanW (df.filterMap full?), v.x⟩⟩ := by
  unfold prepRC normW full?
  rw [List.mem_map]
  constructor
  · rintro ⟨q, hq, rfl⟩
    rw [List.mem_filterMap] at hq
    obtain ⟨s, hs, he⟩ := hq
    rw [Option.map_eq_some_iff] at he
    obtain ⟨v, hv, rfl⟩ := he
    exact ⟨s, hs, v, hv, rfl⟩
  · rintro ⟨s, hs, v, hv, rfl⟩
    refine ⟨⟨s.id, s.t, ⟨s.val.d, v.y, v.w, v.x⟩⟩, ?_, rfl⟩
    rw [List.mem_filterMap]
    exact ⟨s, hs, by rw [hv]; rfl⟩

/-- What a repeated cross-section call computes. -/
theorem rc_arrays (f : Fits κ K) (e : Est) (level : K) {df : List (Row ι ℤ (Obs κ K))} {t0 t1 : ℤ}
    (h : RCFrame df t0 t1) : runFrame f e false level df = runRC f e level t1 (prepRC df) := by
  obtain ⟨r0, hr0, hd0, ht0, v0, hv0⟩ := h.row (a := 0) (t := t0) (Or.inl rfl) (Or.inl rfl)
  obtain ⟨r1, hr1, hd1, ht1, v1, hv1⟩ := h.row (a := 1) (t := t1) (Or.inr rfl) (Or.inr rfl)
  have hdok : dataOk df = true := by
    unfold dataOk
    simp only [Bool.and_eq_true, decide_eq_true_eq, List.all_eq_true]
    refine ⟨⟨?_, ?_⟩, fun r hr => h.treat r hr⟩
    · apply nUnique_two h.lt.ne
      · intro t ht
        obtain ⟨r, hr, rfl⟩ := List.mem_map.1 ht
        exact h.times r hr
      · exact List.mem_map.2 ⟨r0, hr0, ht0⟩
      · exact List.mem_map.2 ⟨r1, hr1, ht1⟩
    · apply nUnique_two (a := (0 : ℤ)) (b := 1) (by decide)
      · intro t ht
        obtain ⟨r, hr, rfl⟩ := List.mem_map.1 ht
        exact h.treat r hr
      · exact List.mem_map.2 ⟨r0, hr0, hd0⟩
      · exact List.mem_map.2 ⟨r1, hr1, hd1⟩
  have hwok : weightsOk df = true := by
    unfold weightsOk
    rw [List.all_eq_true]
    intro r hr
    cases hv : r.val.v with
    | none => rfl
    | some v => simp only [decide_eq_true_eq]; exact h.nonneg r hr v hv
  have hst : sortedTimes (prepRC df) = [t0, t1] := by
    apply sortedTimes_two h.lt
    · intro r hr
      obtain ⟨s, hs, v, _, rfl⟩ := mem_prepRC.1 hr
      exact h.times s hs
    · exact ⟨_, mem_prepRC.2 ⟨r0, hr0, v0, hv0, rfl⟩, ht0⟩
    · exact ⟨_, mem_prepRC.2 ⟨r1, hr1, v1, hv1, rfl⟩, ht1⟩
  unfold runFrame
  rw [if_neg (by simp [hdok]), if_neg (by simp), if_neg (by simp [hwok])]
  have hdn : dropNulls false df = some (df.filterMap full?) := by
    unfold dropNulls; simp
  rw [hdn]
  dsimp only
  rw [if_neg (by simp)]
  have : normW (df.filterMap full?) = prepRC df := rfl
  rw [this, hst]

/-! ## The arrays -/

section Arrays
variable {df : List (Row ι ℤ (Obs κ K))} {t0 t1 : ℤ}

/-- Weights, treatment, period and outcome arrays of the call. -/
def aW (df : List (Row ι ℤ (Obs κ K))) (i : Fin (prepRC df).length) : K := ((prepRC df)[i]).val.w
def aD (df : List (Row ι ℤ (Obs κ K))) (i : Fin (prepRC df).length) : Bool := decide (((prepRC df)[i]).val.d = 1)
def aP (df : List (Row ι ℤ (Obs κ K))) (t1 : ℤ) (i : Fin (prepRC df).length) : Bool := decide (((prepRC df)[i]).t = t1)
def aY (df : List (Row ι ℤ (Obs κ K))) (i : Fin (prepRC df).length) : K := ((prepRC df)[i]).val.y
def aX (df : List (Row ι ℤ (Obs κ K))) (i : Fin (prepRC df).length) : κ → K := ((prepRC df)[i]).val.x

lemma runRC_eq (f : Fits κ K) (e : Est) (level : K) :
    runRC f e level t1 (prepRC df) =
      rcEst f e level (prepRC df).length (aY df) (aP df t1) (aD df) (aX df) (aW df) := rfl

lemma sum_map_div {A : Type*} (l : List A) (g : A → K) (m : K) : (l.map fun a => g a / m).sum = (l.map g).sum / m := by
  induction l with
  | nil => simp
  | cons a l ih => simp [ih, add_div]

lemma sum_map_nonneg {A : Type*} {l : List A} {g : A → K} (h : ∀ a ∈ l, 0 ≤ g a) : 0 ≤ (l.map g).sum := by
  apply List.sum_nonneg
  intro x hx
  obtain ⟨a, ha, rfl⟩ := List.mem_map.1 hx
  exact h a ha

lemma le_sum_map {A : Type*} {l : List A} {g : A → K} (h : ∀ a ∈ l, 0 ≤ g a) {a : A} (ha : a ∈ l) : g a ≤ (l.map g).sum := by
  apply List.single_le_sum
  · intro x hx
    obtain ⟨b, hb, rfl⟩ := List.mem_map.1 hx
    exact h b hb
  · exact List.mem_map.2 ⟨a, ha, rfl⟩

lemma exists_pos_of_sum_pos {A : Type*} {l : List A} {g : A → K} (h : 0 < (l.map g).sum) : ∃ a ∈ l, 0 < g a := by
  by_contra hn
  push Not at hn
  have : (l.map g).sum ≤ 0 := by
    clear h
    induction l with
    | nil => simp
    | cons b l ih =>
      rw [List.map_cons, List.sum_cons]
      exact add_nonpos (hn b (by simp)) (ih fun c hc => hn c (by simp [hc]))
  exact absurd h (not_lt.2 this)

lemma RCFrame.mean_pos (h : RCFrame df t0 t1) : 0 < meanW (df.filterMap full?) := by
  obtain ⟨v, hv, hw⟩ := exists_pos_of_sum_pos (h.cells 1 t1 (Or.inr rfl) (Or.inr rfl))
  unfold cellRows at hv
  rw [List.mem_filterMap] at hv
  obtain ⟨r, hr, hrv⟩ := hv
  split_ifs at hrv with hc
  have hm : (⟨r.id, r.t, ⟨r.val.d, v.y, v.w, v.x⟩⟩ : Row ι ℤ (Full κ K)) ∈ df.filterMap full? := by
    rw [List.mem_filterMap]
    exact ⟨r, hr, by unfold full?; rw [hrv]; rfl⟩
  unfold meanW
  apply div_pos
  · refine lt_of_lt_of_le hw (le_sum_map (g := fun r : Row ι ℤ (Full κ K) => r.val.w) ?_ hm)
    intro q hq
    rw [List.mem_filterMap] at hq
    obtain ⟨s, hs, he⟩ := hq
    unfold full? at he
    rw [Option.map_eq_some_iff] at he
    obtain ⟨u, hu, rfl⟩ := he
    exact h.nonneg s hs u hu
  · have := List.length_pos_of_mem hm
    exact_mod_cast this

lemma aW_cell (h : RCFrame df t0 t1) (a b : Bool) :
    ∑ i with (aD df i = a ∧ aP df t1 i = b), aW df i =
      ((cellRows df (if a then 1 else 0) (if b then t1 else t0)).map fun v => v.w).sum / meanW (df.filterMap full?) := by
  rw [← sum_map_div]
  exact sum_cell h a b fun w _ => w

lemma aWY_cell (h : RCFrame df t0 t1) (a b : Bool) :
    ∑ i with (aD df i = a ∧ aP df t1 i = b), aW df i * aY df i =
      ((cellRows df (if a then 1 else 0) (if b then t1 else t0)).map fun v => v.w * v.y).sum /
        meanW (df.filterMap full?) := by
  rw [← sum_map_div]
  have := sum_cell h a b fun w y => w * y
  refine this.trans ?_
  congr 1
  apply List.map_congr_left
  intro v _
  ring

lemma RCFrame.four (h : RCFrame df t0 t1) : FourCells (aW df) (aD df) (aP df t1) := by
  constructor
  · intro i
    obtain ⟨s, hs, v, hv, he⟩ := mem_prepRC.1 (List.getElem_mem i.2)
    have : aW df i = v.w / meanW (df.filterMap full?) := by
      unfold aW
      have : (prepRC df)[i] = _ := he
      rw [this]
    rw [this]
    exact div_nonneg (h.nonneg s hs v hv) h.mean_pos.le
  · intro a b
    rw [aW_cell h]
    refine div_pos (h.cells _ _ ?_ ?_) h.mean_pos
    · cases a <;> simp
    · cases b <;> simp

lemma RCFrame.did (h : RCFrame df t0 t1) : did4 (aW df) (aD df) (aP df t1) (aY df) = frameDid df t0 t1 := by
  have hm := h.mean_pos.ne'
  unfold did4 frameDid meanY wavg
  simp only [aW_cell h, aWY_cell h, div_div_div_cancel_right₀ hm, if_true, Bool.false_eq_true, if_false]

lemma arm_split (w : Fin (prepRC df).length → K) (d p : Fin (prepRC df).length → Bool) (a : Bool) :
    ∑ i with d i = a, w i = ∑ i with (d i = a ∧ p i = false), w i + ∑ i with (d i = a ∧ p i = true), w i := by
  simp only [Finset.sum_filter]
  rw [← Finset.sum_add_distrib]
  apply Finset.sum_congr rfl
  intro i _
  cases hp : p i <;> by_cases ha : d i = a <;> simp [hp, ha]

lemma RCFrame.share (h : RCFrame df t0 t1) : treatedShare (aW df) (aD df) = rowShare df t0 t1 := by
  have hm := h.mean_pos.ne'
  unfold treatedShare rowShare
  rw [sum_split (aD df), arm_split (aW df) (aD df) (aP df t1) true, arm_split (aW df) (aD df) (aP df t1) false]
  simp only [aW_cell h, if_true, Bool.false_eq_true, if_false]
  rw [← add_div, ← add_div, ← add_div, div_div_div_cancel_right₀ hm]

end Arrays

/-! ## C219: no covariates -/

/-- The tilted scores on a column of ones: constant, and the odds-weighted comparison group has the weight of the treated. -/
def TiltFits (f : Fits Unit K) : Prop :=
  ∀ n w d x, (∀ i, x i () = 1) → ∑ i, w i ≠ 0 → ∑ i with d i = false, w i ≠ 0 →
    ∃ p, f.ipt n w d x = (fun _ => p) ∧ ∑ i with d i = true, w i = ∑ i with d i = false, w i * (p / (1 - p))

lemma tilt_share {α : Type*} [Fintype α] {w : α → K} {d : α → Bool} (hw : BothArms w d) {p : K}
    (h : ∑ i with d i = true, w i = ∑ i with d i = false, w i * (p / (1 - p))) : p = treatedShare w d := by
  rw [← Finset.sum_mul] at h
  have hT := hw.treated
  have hC := hw.control
  unfold treatedShare
  rw [sum_split d]
  have h1 : 1 - p ≠ 0 := by
    intro h0
    rw [h0, div_zero, mul_zero] at h
    exact hT.ne' h
  have h2 : (∑ i with d i = true, w i) * (1 - p) = (∑ i with d i = false, w i) * p := by
    rw [h]; field_simp
  rw [eq_div_iff (add_pos hT hC).ne']
  linear_combination -h2

lemma RCFrame.ones {df : List (Row ι ℤ (Obs Unit K))} (hx : ∀ r ∈ df, ∀ v, r.val.v = some v → v.x () = 1) (i) :
    aX df i () = 1 := by
  obtain ⟨s, hs, v, hv, he⟩ := mem_prepRC.1 (List.getElem_mem i.2)
  have : aX df i = v.x := by
    unfold aX
    have : (prepRC df)[i] = _ := he
    rw [this]
  rw [this]; exact hx s hs v hv

section NoCov
variable {α : Type*} [Fintype α]

/-- The two tilting estimators with a constant only. -/
theorem tilt_no_covariates (ols : OLS α Unit K) (ipt : Logit α Unit K) (lo hi level : K)
    (y : α → K) (post d : α → Bool) (x : α → Unit → K) (w : α → K)
    (hlo : 0 < lo) (hhi : hi < 1) (hlh : lo ≤ hi) (hx : ∀ i, x i () = 1) (hw : FourCells w d post)
    (hipt : ∃ p, ipt (normalize w) d x = (fun _ => p) ∧
      ∑ i with d i = true, normalize w i = ∑ i with d i = false, normalize w i * (p / (1 - p)))
    (hlevel : min hi (max lo (treatedShare w d)) < level) :
    drdidImpRC ols ipt lo hi level y post d x w = some (did4 w d post y) ∧
    drdidImpLocalRC ols ipt lo hi level y post d x w = some (did4 w d post y) := by
  obtain ⟨p, hp, hbal⟩ := hipt
  have hps := tilt_share hw.norm.arms hbal
  rw [share_normalize hw.arms] at hps
  obtain ⟨q, hq⟩ : ∃ q, q = min hi (max lo p) := ⟨_, rfl⟩
  have hclip : clip lo hi (ipt (normalize w) d x) = fun _ => q := by funext i; unfold clip; rw [hp, hq]
  have hql : q < level := by rw [hq, hps]; exact hlevel
  have hq1 : q < 1 := by rw [hq]; exact lt_of_le_of_lt (min_le_left _ _) hhi
  have hq0 : 0 < q := by rw [hq]; exact lt_min (lt_of_lt_of_le hlo hlh) (lt_of_lt_of_le hlo (le_max_left _ _))
  have hodds : q / (1 - q) ≠ 0 := (div_pos hq0 (sub_pos.2 hq1)).ne'
  have := hw.nonempty
  have hfit : ∀ β : Unit → K, fitted x β = fun _ => β () := by
    intro β; funext i; unfold fitted; simp [hx]
  constructor
  · unfold drdidImpRC
    rw [hw.checks]
    simp only [if_true, hclip, hfit]
    rw [tradRC_const hw.norm hql hodds, did4_normalize hw]
  · unfold drdidImpLocalRC
    rw [hw.checks]
    simp only [if_true, hclip, hfit]
    unfold drRC
    rw [tradRC_const hw.norm hql hodds, did4_normalize hw]
    have e0 : (fun i => ind (trim level d (fun _ => q)) i * normalize w i * ind d i) =
        wTreat d (trim level d (fun _ => q)) (normalize w) := rfl
    have e1 : (fun i => ind (trim level d (fun _ => q)) i * normalize w i * ind d i * postK post i) =
        wTreatRC d (trim level d (fun _ => q)) (normalize w) (perK post true) := rfl
    have e2 : (fun i => ind (trim level d (fun _ => q)) i * normalize w i * ind d i * (1 - postK post i)) =
        wTreatRC d (trim level d (fun _ => q)) (normalize w) (perK post false) := rfl
    have hT : mean (fun i => ind d i * normalize w i) ≠ 0 := by
      rw [Ne, mean_eq_zero, sum_ind]; exact hw.norm.arms.treated.ne'
    simp only [hmean_eq_wmean, e0, e1, e2, wTreat_trim, wTreatRC_trim]
    rw [wmean_const _ _ hT, wmean_const _ _ (mean_ite_ne hw.norm true true), wmean_const _ _ hT,
      wmean_const _ _ (mean_ite_ne hw.norm true false)]
    simp

end NoCov

/-- **C219.** Repeated cross-sections without covariates: all four methods of `drdid`, `ordid` and the normalised `ipwdid`
return the four-mean difference-in-differences of the rows without nulls — unit identifiers, row order and duplicated rows
play no role, rows with a null in a used column are left out. -/
theorem C219_no_covariates (f : Fits Unit K) (hf : InterceptFits f) (ht : TiltFits f) (o : Opts K)
    {df : List (Row ι ℤ (Obs Unit K))} {t0 t1 : ℤ} (h : RCFrame df t0 t1)
    (hx : ∀ r ∈ df, ∀ v, r.val.v = some v → v.x () = 1) (ho : CommonOptions o) (hp : o.panel = false)
    (hl : 0 < o.level ∧ o.level < 1) (hs : min hi (max lo (rowShare df t0 t1)) < o.level) :
    ((o.est = "imp" ∨ o.est = "trad" ∨ o.est = "imp_local" ∨ o.est = "trad_local") →
      drdidCall f o df = .ok (some (frameDid df t0 t1))) ∧
    (o.est = "std_ipw" → ipwdidCall f o df = .ok (some (frameDid df t0 t1))) ∧
    ordidCall f o df = .ok (some (frameDid df t0 t1)) := by
  obtain ⟨h1, h2, h3, h4⟩ := ho
  have hn : ¬ o.nBoot < 1 := by omega
  have hfour := h.four
  have hx1 := fun i => RCFrame.ones hx i
  have hlev : min hi (max lo (treatedShare (aW df) (aD df))) < o.level := by rw [h.share]; exact hs
  obtain ⟨p, hpl, hsc⟩ := hf.logit _ (normalize (aW df)) (aD df) (aX df) hx1 hfour.norm.arms.total.ne'
  have htilt := ht _ (normalize (aW df)) (aD df) (aX df) hx1 hfour.norm.arms.total.ne'
    hfour.norm.arms.control.ne'
  have himp := tilt_no_covariates (f.ols _) (f.ipt _) lo hi o.level (aY df) (aP df t1) (aD df) (aX df) (aW df)
    lo_pos hi_lt lo_le_hi hx1 hfour htilt hlev
  rw [h.did] at himp
  refine ⟨?_, ?_, ?_⟩
  · intro he
    rcases he with he | he | he | he
    · have hch : drChoose o = .ok .impRC := by
        rcases h3 with h3 | h3 <;> simp [drChoose, h1, hp, he, hl.1, hl.2, h3, hn]
      unfold drdidCall
      rw [hch, hp]
      dsimp only
      rw [rc_arrays f _ _ h, runRC_eq]
      unfold rcEst
      dsimp only
      rw [himp.1]
    · have hch : drChoose o = .ok .effRC := by
        rcases h3 with h3 | h3 <;> simp [drChoose, h1, hp, he, hl.1, hl.2, h3, hn]
      unfold drdidCall
      rw [hch, hp]
      dsimp only
      rw [rc_arrays f _ _ h, runRC_eq]
      unfold rcEst
      dsimp only
      rw [C29_dr_no_covariates _ _ _ _ _ _ _ _ _ _ lo_pos hi_lt lo_le_hi hx1 hfour ⟨p, hpl⟩ (by rw [hpl]; exact hsc) hlev,
        h.did]
    · have hch : drChoose o = .ok .impLocalRC := by
        rcases h3 with h3 | h3 <;> simp [drChoose, h1, hp, he, hl.1, hl.2, h3, hn]
      unfold drdidCall
      rw [hch, hp]
      dsimp only
      rw [rc_arrays f _ _ h, runRC_eq]
      unfold rcEst
      dsimp only
      rw [himp.2]
    · have hch : drChoose o = .ok .tradRC := by
        rcases h3 with h3 | h3 <;> simp [drChoose, h1, hp, he, hl.1, hl.2, h3, hn]
      unfold drdidCall
      rw [hch, hp]
      dsimp only
      rw [rc_arrays f _ _ h, runRC_eq]
      unfold rcEst
      dsimp only
      rw [C29_trad_no_covariates _ _ _ _ _ _ _ _ _ _ lo_pos hi_lt lo_le_hi hx1 hfour ⟨p, hpl⟩ (by rw [hpl]; exact hsc)
        hlev, h.did]
  · intro he
    have hch : ipwChoose o = .ok .stdIpwRC := by
      rcases h3 with h3 | h3 <;> simp [ipwChoose, h1, hp, he, hl.1, hl.2, h3, hn]
    unfold ipwdidCall
    rw [hch, hp]
    dsimp only
    rw [rc_arrays f _ _ h, runRC_eq]
    unfold rcEst
    dsimp only
    rw [C29_ipw_no_covariates _ _ _ _ _ _ _ _ _ lo_pos hi_lt lo_le_hi hx1 hfour ⟨p, hpl⟩ (by rw [hpl]; exact hsc) hlev,
      h.did]
  · have hch : orChoose o = .ok .regRC := by
      rcases h3 with h3 | h3 <;> simp [orChoose, h1, hp, h3, hn]
    unfold ordidCall
    rw [hch, hp]
    dsimp only
    rw [rc_arrays f _ _ h, runRC_eq]
    unfold rcEst
    dsimp only
    rw [C29_reg_no_covariates _ _ _ _ _ _ hx1 hfour, h.did]
    intro pre
    apply hf.ols _ _ _ _ _ hx1
    have hsel : ∀ i, cellSel (aD df) (aP df t1) pre false i = true ↔ (aD df i = false ∧ aP df t1 i = !pre) := by
      intro i; unfold cellSel; cases aD df i <;> cases aP df t1 i <;> cases pre <;> simp
    rw [Finset.sum_congr (s₂ := Finset.univ.filter (fun i => aD df i = false ∧ aP df t1 i = !pre))
      (by ext i; simp [hsel]) (fun _ _ => rfl)]
    exact (hfour.norm.pos false (!pre)).ne'

/-! ### A concrete cross-section -/

lemma meanFits_tilt : TiltFits meanFits := by
  intro n w d x _ hs hC
  refine ⟨treatedShare w d, rfl, ?_⟩
  rw [← Finset.sum_mul]
  unfold treatedShare
  rw [sum_split d] at hs ⊢
  generalize ∑ i with d i = true, w i = a at hs ⊢
  generalize ∑ i with d i = false, w i = b at hs hC ⊢
  have : 1 - a / (a + b) = b / (a + b) := by field_simp; ring
  rw [this, div_div_div_cancel_right₀ hs]
  field_simp

/-- Eight usable rows in four cells, unit identifiers repeated, and a row with a null. -/
def rcFrame : List (Row ℕ ℤ (Obs Unit ℚ)) :=
  [exRow 1 3 1 2 1, exRow 1 3 1 4 3, ⟨7, 4, ⟨1, none⟩⟩, exRow 2 4 1 9 1, exRow 2 3 0 1 1, exRow 3 3 0 2 1, exRow 3 4 0 3 2,
   exRow 4 4 0 6 1]

def rcOpts : Opts ℚ := ⟨true, false, false, "imp_local", 199 / 200, "multiplier", 1⟩

lemma rcFrame_ok : RCFrame rcFrame 3 4 := by
  refine ⟨by decide, ?_, ?_, ?_, ?_⟩
  · simp [rcFrame, exRow]
  · simp [rcFrame, exRow]
  · simp [rcFrame, exRow]
  · rintro a t (rfl | rfl) (rfl | rfl) <;> simp [rcFrame, exRow, cellRows, List.filterMap_cons] <;> norm_num

example : drdidCall meanFits rcOpts rcFrame = .ok (some 3) ∧ ordidCall meanFits rcOpts rcFrame = .ok (some 3) := by
  have h := C219_no_covariates meanFits meanFits_ok meanFits_tilt rcOpts rcFrame_ok (by simp [rcFrame, exRow])
    (by simp [CommonOptions, rcOpts]) rfl (by simp [rcOpts]; norm_num) (by decide +kernel)
  have e : frameDid rcFrame 3 4 = 3 := by decide +kernel
  rw [e] at h
  exact ⟨h.1 (by simp [rcOpts]), h.2.2⟩

end Verif.DR.Entry
