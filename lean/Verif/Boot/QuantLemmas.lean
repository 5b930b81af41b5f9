import Verif.Boot.QuantModel
import Mathlib.Tactic.Linarith
import Mathlib.Tactic.Ring
import Mathlib.Tactic.FieldSimp
import Mathlib.Data.List.GetD

set_option linter.unusedSectionVars false
set_option linter.unusedSimpArgs false

/-! # Order statistics and percentiles: lemmas -/

namespace Verif.Boot

section
variable {K : Type*} [Field K] [LinearOrder K]

/-- The `k`-th order statistic. -/
def ostat (k : ℕ) (xs : List K) : K := (xs.insertionSort (· ≤ ·)).getD k 0

theorem sorted_getD_le {s : List K} (hs : s.Pairwise (· ≤ ·)) {k : ℕ} (hk : k < s.length) (v : K) :
    s.getD k 0 ≤ v ↔ k < s.countP (fun x => decide (x ≤ v)) := by
  induction s generalizing k with
  | nil => simp at hk
  | cons a s ih =>
    rw [List.pairwise_cons] at hs
    rcases k with _ | k
    · simp only [List.getD_cons_zero, List.countP_cons]
      constructor
      · intro h; simp [h]
      · intro h
        by_contra hav
        have : s.countP (fun x => decide (x ≤ v)) = 0 := by
          rw [List.countP_eq_zero]
          intro x hx
          have := hs.1 x hx
          simp only [decide_eq_true_eq, not_le]
          exact lt_of_lt_of_le (not_le.mp hav) this
        simp [this, hav] at h
    · simp only [List.getD_cons_succ, List.countP_cons]
      have hk' : k < s.length := by simpa using hk
      rw [ih hs.2 hk']
      constructor
      · intro h
        have hpos : 0 < s.countP (fun x => decide (x ≤ v)) := by omega
        obtain ⟨x, hx, hxv⟩ := List.countP_pos_iff.mp hpos
        have : a ≤ v := (hs.1 x hx).trans (by simpa using hxv)
        simp [this]; omega
      · intro h
        by_cases hav : a ≤ v
        · simp [hav] at h; omega
        · exfalso
          have : s.countP (fun x => decide (x ≤ v)) = 0 := by
            rw [List.countP_eq_zero]
            intro x hx
            have := hs.1 x hx
            simp only [decide_eq_true_eq, not_le]
            exact lt_of_lt_of_le (not_le.mp hav) this
          simp [this, hav] at h

theorem sorted_getD_lt {s : List K} (hs : s.Pairwise (· ≤ ·)) {k : ℕ} (hk : k < s.length) (v : K) :
    s.getD k 0 < v ↔ k < s.countP (fun x => decide (x < v)) := by
  induction s generalizing k with
  | nil => simp at hk
  | cons a s ih =>
    rw [List.pairwise_cons] at hs
    rcases k with _ | k
    · simp only [List.getD_cons_zero, List.countP_cons]
      constructor
      · intro h; simp [h]
      · intro h
        by_contra hav
        have : s.countP (fun x => decide (x < v)) = 0 := by
          rw [List.countP_eq_zero]
          intro x hx
          have := hs.1 x hx
          simp only [decide_eq_true_eq, not_lt]
          exact (not_lt.mp hav).trans this
        simp [this, hav] at h
    · simp only [List.getD_cons_succ, List.countP_cons]
      have hk' : k < s.length := by simpa using hk
      rw [ih hs.2 hk']
      constructor
      · intro h
        have hpos : 0 < s.countP (fun x => decide (x < v)) := by omega
        obtain ⟨x, hx, hxv⟩ := List.countP_pos_iff.mp hpos
        have : a < v := (hs.1 x hx).trans_lt (by simpa using hxv)
        simp [this]; omega
      · intro h
        by_cases hav : a < v
        · simp [hav] at h; omega
        · exfalso
          have : s.countP (fun x => decide (x < v)) = 0 := by
            rw [List.countP_eq_zero]
            intro x hx
            have := hs.1 x hx
            simp only [decide_eq_true_eq, not_lt]
            exact (not_lt.mp hav).trans this
          simp [this, hav] at h

theorem sort_pairwise (xs : List K) : (xs.insertionSort (· ≤ ·)).Pairwise (· ≤ ·) :=
  List.pairwise_insertionSort _ _

theorem ostat_le {k : ℕ} {xs : List K} (hk : k < xs.length) (v : K) :
    ostat k xs ≤ v ↔ k < xs.countP (fun x => decide (x ≤ v)) := by
  unfold ostat
  rw [sorted_getD_le (sort_pairwise xs) (by simpa using hk), (List.perm_insertionSort _ xs).countP_eq]

theorem ostat_lt {k : ℕ} {xs : List K} (hk : k < xs.length) (v : K) :
    ostat k xs < v ↔ k < xs.countP (fun x => decide (x < v)) := by
  unfold ostat
  rw [sorted_getD_lt (sort_pairwise xs) (by simpa using hk), (List.perm_insertionSort _ xs).countP_eq]

theorem ostat_perm {k : ℕ} {xs ys : List K} (h : xs.Perm ys) : ostat k xs = ostat k ys := by
  unfold ostat
  have : xs.insertionSort (· ≤ ·) = ys.insertionSort (· ≤ ·) := by
    apply List.Perm.eq_of_pairwise _ (sort_pairwise _) (sort_pairwise _)
    · exact ((List.perm_insertionSort _ xs).trans h).trans (List.perm_insertionSort _ ys).symm
    · intro a b _ _ h1 h2; exact le_antisymm h1 h2
  rw [this]

theorem ostat_mono {k l : ℕ} {xs : List K} (h : k ≤ l) (hl : l < xs.length) : ostat k xs ≤ ostat l xs := by
  rw [ostat_le (by omega)]
  have := (ostat_le hl (ostat l xs)).mp le_rfl
  omega

theorem ostat_mem {k : ℕ} {xs : List K} (hk : k < xs.length) : ostat k xs ∈ xs := by
  unfold ostat
  have hk' : k < (xs.insertionSort (· ≤ ·)).length := by simpa using hk
  rw [List.getD_eq_getElem _ _ hk']
  exact (List.perm_insertionSort _ xs).mem_iff.mp (List.getElem_mem hk')

theorem countP_zip_le {xs ys : List K} (h : List.Forall₂ (· ≤ ·) xs ys) (v : K) :
    ys.countP (fun x => decide (x ≤ v)) ≤ xs.countP (fun x => decide (x ≤ v)) := by
  induction h with
  | nil => simp
  | @cons a b xs ys hab _ ih =>
    simp only [List.countP_cons]
    by_cases hb : b ≤ v
    · simp [hb, hab.trans hb, ih]
    · simp only [hb, decide_false, Bool.false_eq_true, if_false]
      omega

theorem ostat_le_ostat {k : ℕ} {xs ys : List K} (h : List.Forall₂ (· ≤ ·) xs ys) (hk : k < xs.length) :
    ostat k xs ≤ ostat k ys := by
  have hl := h.length_eq
  rw [ostat_le hk]
  have := (ostat_le (by omega : k < ys.length) (ostat k ys)).mp le_rfl
  exact lt_of_lt_of_le this (countP_zip_le h _)

variable [IsStrictOrderedRing K]

theorem ostat_smul {k : ℕ} {xs : List K} (hk : k < xs.length) {c : K} (hc : 0 < c) :
    ostat k (xs.map (c * ·)) = c * ostat k xs := by
  apply eq_of_forall_ge_iff
  intro v
  rw [ostat_le (by simpa using hk), ← le_div_iff₀' hc, ostat_le hk, List.countP_map]
  have : ((fun x => decide (x ≤ v)) ∘ fun x => c * x) = fun x => decide (x ≤ v / c) := by
    funext x; simp [le_div_iff₀' hc]
  rw [this]

theorem ostat_neg {k : ℕ} {xs : List K} (hk : k < xs.length) :
    ostat k (xs.map (fun x => -x)) = - ostat (xs.length - 1 - k) xs := by
  apply eq_of_forall_ge_iff
  intro v
  rw [ostat_le (by simpa using hk), neg_le, ← not_lt, ostat_lt (by omega), List.countP_map]
  have h1 : ((fun x => decide (x ≤ v)) ∘ fun x : K => -x) = fun x => !decide (x < -v) := by
    funext x
    simp only [Function.comp, ← decide_not, not_lt]
    congr 1
    exact propext neg_le
  have h2 := List.length_eq_countP_add_countP (l := xs) (fun x => decide (x < -v))
  rw [h1]
  have h3 : xs.countP (fun x => !decide (x < -v)) = xs.countP (fun a => decide ¬(decide (a < -v)) = true) := by
    congr 1; funext x; by_cases hx : x < -v <;> simp [hx]
  omega

variable [FloorRing K]

/-- `percentile` through order statistics. -/
theorem percentile_eq (q : K) (xs : List K) :
    percentile q xs = ostat ⌊((xs.length - 1 : ℕ) : K) * q⌋₊ xs +
      (((xs.length - 1 : ℕ) : K) * q - (⌊((xs.length - 1 : ℕ) : K) * q⌋₊ : K)) *
      (ostat (min (⌊((xs.length - 1 : ℕ) : K) * q⌋₊ + 1) (xs.length - 1)) xs -
        ostat ⌊((xs.length - 1 : ℕ) : K) * q⌋₊ xs) := rfl

/-- Linear interpolation of a sequence. -/
def interp (f : ℕ → K) (m : ℕ) (h : K) : K := f ⌊h⌋₊ + (h - (⌊h⌋₊ : K)) * (f (min (⌊h⌋₊ + 1) m) - f ⌊h⌋₊)

theorem percentile_interp (q : K) (xs : List K) :
    percentile q xs = interp (fun k => ostat k xs) (xs.length - 1) (((xs.length - 1 : ℕ) : K) * q) := rfl

theorem interp_congr {f g : ℕ → K} {m : ℕ} {h : K} (h1 : h ≤ m) (hfg : ∀ k ≤ m, f k = g k) :
    interp f m h = interp g m h := by
  have hl : ⌊h⌋₊ ≤ m := Nat.floor_le_of_le h1
  unfold interp
  rw [hfg _ hl, hfg _ (min_le_right _ _)]

theorem frac_nonneg {h : K} (h0 : 0 ≤ h) : 0 ≤ h - (⌊h⌋₊ : K) := by linarith [Nat.floor_le h0]

theorem frac_lt_one {h : K} : h - (⌊h⌋₊ : K) < 1 := by linarith [Nat.lt_floor_add_one h]

theorem interp_le_interp {f g : ℕ → K} {m : ℕ} {h : K} (h0 : 0 ≤ h) (h1 : h ≤ m) (hfg : ∀ k ≤ m, f k ≤ g k) :
    interp f m h ≤ interp g m h := by
  have hl : ⌊h⌋₊ ≤ m := Nat.floor_le_of_le h1
  unfold interp
  have a := hfg _ hl
  have b := hfg _ (min_le_right (⌊h⌋₊ + 1) m)
  have p := frac_nonneg h0
  have q := (frac_lt_one (h := h)).le
  nlinarith [mul_le_mul_of_nonneg_left b p, mul_le_mul_of_nonneg_left a (sub_nonneg.mpr q)]

theorem interp_smul (c : K) (f : ℕ → K) (m : ℕ) (h : K) : interp (fun k => c * f k) m h = c * interp f m h := by
  unfold interp; ring

/-- Mirror image: reversing the sequence reverses the position. -/
theorem interp_rev {f : ℕ → K} {m : ℕ} {h : K} (h0 : 0 ≤ h) (h1 : h ≤ m) :
    interp (fun k => f (m - k)) m h = interp f m ((m : K) - h) := by
  have hl : ⌊h⌋₊ ≤ m := Nat.floor_le_of_le h1
  by_cases hint : (⌊h⌋₊ : K) = h
  · have hm : ((m - ⌊h⌋₊ : ℕ) : K) = (m : K) - h := by rw [Nat.cast_sub hl, hint]
    have hf : ⌊(m : K) - h⌋₊ = m - ⌊h⌋₊ := by rw [← hm, Nat.floor_natCast]
    unfold interp
    rw [hf, hm, hint]
    ring
  · have hlt : (⌊h⌋₊ : K) < h := lt_of_le_of_ne (Nat.floor_le h0) hint
    have hl2 : ⌊h⌋₊ + 1 ≤ m := by
      have : (⌊h⌋₊ : K) < (m : K) := hlt.trans_le h1
      exact_mod_cast this
    have hc : ((m - ⌊h⌋₊ - 1 : ℕ) : K) = (m : K) - (⌊h⌋₊ : K) - 1 := by
      rw [Nat.cast_sub (by omega), Nat.cast_sub hl]; simp
    have hf : ⌊(m : K) - h⌋₊ = m - ⌊h⌋₊ - 1 := by
      rw [Nat.floor_eq_iff (by linarith), hc]
      constructor
      · linarith [Nat.lt_floor_add_one h]
      · linarith
    unfold interp
    rw [hf, hc]
    have e1 : min (⌊h⌋₊ + 1) m = ⌊h⌋₊ + 1 := by omega
    have e2 : min (m - ⌊h⌋₊ - 1 + 1) m = m - ⌊h⌋₊ := by omega
    have e3 : m - (⌊h⌋₊ + 1) = m - ⌊h⌋₊ - 1 := by omega
    beta_reduce
    rw [e1, e2, e3]
    ring

variable {xs ys : List K} {q : K}

theorem pos_bounds (h0 : 0 ≤ q) (h1 : q ≤ 1) (m : ℕ) : 0 ≤ (m : K) * q ∧ (m : K) * q ≤ m :=
  ⟨mul_nonneg (Nat.cast_nonneg _) h0, mul_le_of_le_one_right (Nat.cast_nonneg _) h1⟩

theorem percentile_perm (h : xs.Perm ys) : percentile q xs = percentile q ys := by
  rw [percentile_interp, percentile_interp, h.length_eq]
  unfold interp
  simp only [ostat_perm h]

theorem percentile_mono (h : List.Forall₂ (· ≤ ·) xs ys) (hne : xs ≠ []) (h0 : 0 ≤ q) (h1 : q ≤ 1) :
    percentile q xs ≤ percentile q ys := by
  have hl := h.length_eq
  have hp : 0 < xs.length := List.length_pos_iff.mpr hne
  rw [percentile_interp, percentile_interp, ← hl]
  obtain ⟨a, b⟩ := pos_bounds h0 h1 (xs.length - 1)
  exact interp_le_interp a b fun k hk => ostat_le_ostat h (by omega)

theorem percentile_smul {c : K} (hc : 0 < c) (hne : xs ≠ []) (h0 : 0 ≤ q) (h1 : q ≤ 1) :
    percentile q (xs.map (c * ·)) = c * percentile q xs := by
  have hp : 0 < xs.length := List.length_pos_iff.mpr hne
  rw [percentile_interp, percentile_interp, ← interp_smul, List.length_map]
  exact interp_congr (pos_bounds h0 h1 _).2 fun k hk => ostat_smul (by omega) hc

theorem percentile_neg (hne : xs ≠ []) (h0 : 0 ≤ q) (h1 : q ≤ 1) :
    percentile q (xs.map (fun x => -x)) = - percentile (1 - q) xs := by
  have hp : 0 < xs.length := List.length_pos_iff.mpr hne
  obtain ⟨a, b⟩ := pos_bounds h0 h1 (xs.length - 1)
  rw [percentile_interp, percentile_interp, List.length_map]
  rw [interp_congr (g := fun k => (-1) * ostat (xs.length - 1 - k) xs) b
    (fun k hk => by rw [ostat_neg (by omega)]; ring)]
  rw [interp_smul, interp_rev (f := fun k => ostat k xs) a b]
  have : ((xs.length - 1 : ℕ) : K) - ((xs.length - 1 : ℕ) : K) * q = ((xs.length - 1 : ℕ) : K) * (1 - q) := by ring
  rw [this]; ring

theorem percentile_bounds {lo hi : K} (h : ∀ x ∈ xs, lo ≤ x ∧ x ≤ hi) (hne : xs ≠ []) (h0 : 0 ≤ q) (h1 : q ≤ 1) :
    lo ≤ percentile q xs ∧ percentile q xs ≤ hi := by
  have hp : 0 < xs.length := List.length_pos_iff.mpr hne
  obtain ⟨a, b⟩ := pos_bounds h0 h1 (xs.length - 1)
  rw [percentile_interp]
  have hc : ∀ c : K, interp (fun _ => c) (xs.length - 1) (((xs.length - 1 : ℕ) : K) * q) = c := by
    intro c; unfold interp; ring
  constructor
  · rw [← hc lo]
    exact interp_le_interp a b fun k hk => (h _ (ostat_mem (by omega))).1
  · rw [← hc hi]
    exact interp_le_interp a b fun k hk => (h _ (ostat_mem (by omega))).2

/-- At least `⌊(n-1) q⌋ + 1` entries do not exceed the percentile. -/
theorem percentile_cover (hne : xs ≠ []) (h0 : 0 ≤ q) (h1 : q ≤ 1) :
    ⌊((xs.length - 1 : ℕ) : K) * q⌋₊ + 1 ≤ xs.countP (fun x => decide (x ≤ percentile q xs)) := by
  have hp : 0 < xs.length := List.length_pos_iff.mpr hne
  obtain ⟨a, b⟩ := pos_bounds h0 h1 (xs.length - 1)
  have hl : ⌊((xs.length - 1 : ℕ) : K) * q⌋₊ ≤ xs.length - 1 := Nat.floor_le_of_le b
  have : ostat ⌊((xs.length - 1 : ℕ) : K) * q⌋₊ xs ≤ percentile q xs := by
    rw [percentile_eq]
    have h2 := ostat_mono (xs := xs) (k := ⌊((xs.length - 1 : ℕ) : K) * q⌋₊)
      (l := min (⌊((xs.length - 1 : ℕ) : K) * q⌋₊ + 1) (xs.length - 1)) (by omega) (by omega)
    nlinarith [mul_nonneg (frac_nonneg a) (sub_nonneg.mpr h2)]
  have := (ostat_le (by omega) _).mp this
  omega

/-- Fewer than `⌊(n-1) q⌋ + 2` entries lie strictly below the percentile. -/
theorem percentile_cover_lt (hne : xs ≠ []) (h0 : 0 ≤ q) (h1 : q ≤ 1) :
    xs.countP (fun x => decide (x < percentile q xs)) ≤ ⌊((xs.length - 1 : ℕ) : K) * q⌋₊ + 1 := by
  have hp : 0 < xs.length := List.length_pos_iff.mpr hne
  obtain ⟨a, b⟩ := pos_bounds h0 h1 (xs.length - 1)
  set l := ⌊((xs.length - 1 : ℕ) : K) * q⌋₊ with hldef
  have hl : l ≤ xs.length - 1 := Nat.floor_le_of_le b
  by_cases he : l + 1 ≤ xs.length - 1
  · by_contra hcon
    push Not at hcon
    have h2 := (ostat_lt (k := l + 1) (by omega : l + 1 < xs.length) (percentile q xs)).mpr (by omega)
    have h3 := ostat_mono (xs := xs) (k := l) (l := l + 1) (by omega) (by omega)
    rw [percentile_eq, ← hldef, min_eq_left he] at h2
    have f1 := (frac_lt_one (h := ((xs.length - 1 : ℕ) : K) * q)).le
    rw [← hldef] at f1
    nlinarith [mul_nonneg (sub_nonneg.mpr f1) (sub_nonneg.mpr h3)]
  · have := List.countP_le_length (p := fun x => decide (x < percentile q xs)) (l := xs)
    omega

/-- Upper percentiles are above lower ones. -/
theorem percentile_le_percentile {q' : K} (hne : xs ≠ []) (h0 : 0 ≤ q) (hq : q ≤ q') (h1 : q' ≤ 1) :
    percentile q xs ≤ percentile q' xs := by
  have hp : 0 < xs.length := List.length_pos_iff.mpr hne
  set m := xs.length - 1 with hm
  obtain ⟨a, b⟩ := pos_bounds h0 (hq.trans h1) m
  obtain ⟨a', b'⟩ := pos_bounds (h0.trans hq) h1 m
  have hle : (m : K) * q ≤ (m : K) * q' := mul_le_mul_of_nonneg_left hq (Nat.cast_nonneg _)
  rw [percentile_interp, percentile_interp, ← hm]
  generalize (m : K) * q = h at *
  generalize (m : K) * q' = h' at *
  have fl : ⌊h⌋₊ ≤ ⌊h'⌋₊ := Nat.floor_le_floor hle
  have fm : ⌊h'⌋₊ ≤ m := Nat.floor_le_of_le b'
  have f0 := frac_nonneg a
  have f1 := (frac_lt_one (h := h)).le
  have g0 := frac_nonneg a'
  have mo : ∀ k l, k ≤ l → l ≤ m → ostat k xs ≤ ostat l xs := fun k l hkl hl => ostat_mono hkl (by omega)
  unfold interp
  rcases Nat.eq_or_lt_of_le fl with he | hlt
  · rw [he] at f0 f1 ⊢
    have := mo ⌊h'⌋₊ (min (⌊h'⌋₊ + 1) m) (by omega) (by omega)
    nlinarith [mul_nonneg (sub_nonneg.mpr hle) (sub_nonneg.mpr this)]
  · have e : min (⌊h⌋₊ + 1) m = ⌊h⌋₊ + 1 := by omega
    rw [e]
    have m1 := mo ⌊h⌋₊ (⌊h⌋₊ + 1) (by omega) (by omega)
    have m2 := mo (⌊h⌋₊ + 1) ⌊h'⌋₊ (by omega) fm
    have m3 := mo ⌊h'⌋₊ (min (⌊h'⌋₊ + 1) m) (by omega) (by omega)
    nlinarith [mul_nonneg g0 (sub_nonneg.mpr m3), mul_nonneg (sub_nonneg.mpr f1) (sub_nonneg.mpr m1)]

end

end Verif.Boot
