import Verif.Spline.Props
import Mathlib.Tactic.Ring
import Mathlib.Tactic.Positivity
import Mathlib.Tactic.FieldSimp
import Mathlib.Algebra.Order.Floor.Ring

/-!
# Constructing a spline object from its degrees of freedom (C67, C91)
-/

set_option linter.unusedSectionVars false
set_option linter.unusedSimpArgs false

namespace Verif.Spline

theorem linspaceInterior_length (a b : ℚ) (n : ℕ) : (linspaceInterior a b n).length = n := by
  simp [linspaceInterior]

theorem linspaceInterior_strict {a b : ℚ} (h : a < b) (n : ℕ) :
    (linspaceInterior a b n).Pairwise (· < ·) := by
  unfold linspaceInterior
  rw [List.pairwise_map]
  refine List.pairwise_lt_range.imp ?_
  intro i j hij
  have hij' : (i : ℚ) < j := by exact_mod_cast hij
  have hn : (0 : ℚ) < (n : ℚ) + 1 := by positivity
  have : (b - a) * ((i : ℚ) + 1) / ((n : ℚ) + 1) < (b - a) * ((j : ℚ) + 1) / ((n : ℚ) + 1) := by
    apply div_lt_div_of_pos_right _ hn
    apply mul_lt_mul_of_pos_left _ (by linarith)
    linarith
  linarith

theorem linspaceInterior_mem {a b : ℚ} (h : a < b) {n : ℕ} {v : ℚ}
    (hv : v ∈ linspaceInterior a b n) : a < v ∧ v < b := by
  unfold linspaceInterior at hv
  rw [List.mem_map] at hv
  obtain ⟨i, hi, rfl⟩ := hv
  rw [List.mem_range] at hi
  have hi' : (i : ℚ) + 1 < (n : ℚ) + 1 := by
    have : (i : ℚ) < n := by exact_mod_cast hi
    linarith
  have hn : (0 : ℚ) < (n : ℚ) + 1 := by positivity
  have h0 : (0 : ℚ) < (i : ℚ) + 1 := by positivity
  have hba : 0 < b - a := by linarith
  constructor
  · have : 0 < (b - a) * ((i : ℚ) + 1) / ((n : ℚ) + 1) := by positivity
    linarith
  · have : (b - a) * ((i : ℚ) + 1) / ((n : ℚ) + 1) < b - a := by
      rw [div_lt_iff₀ hn]
      exact mul_lt_mul_of_pos_left hi' hba
    linarith

theorem getD_mono {xs : List ℚ} (hs : xs.Pairwise (· ≤ ·)) {i j : ℕ} (hij : i ≤ j)
    (hj : j < xs.length) : xs.getD i 0 ≤ xs.getD j 0 := by
  rw [List.getD_eq_getElem _ _ hj, List.getD_eq_getElem _ _ (lt_of_le_of_lt hij hj)]
  rcases hij.eq_or_lt with rfl | h
  · exact le_refl _
  · exact List.pairwise_iff_getElem.1 hs i j _ hj h

/-- The linear quantile is nondecreasing in the probability. -/
theorem quantile_mono {xs : List ℚ} (hs : xs.Pairwise (· ≤ ·)) (hne : xs ≠ []) {p q : ℚ}
    (hp : 0 ≤ p) (hpq : p ≤ q) (hq : q < 1) : quantile xs p ≤ quantile xs q := by
  have hlen : 1 ≤ xs.length := List.length_pos_iff.2 hne
  have hm : (0 : ℚ) ≤ (xs.length : ℚ) - 1 := by
    have : (1 : ℚ) ≤ xs.length := by exact_mod_cast hlen
    linarith
  unfold quantile
  dsimp only
  generalize hh1 : ((xs.length : ℚ) - 1) * p = h1
  generalize hh2 : ((xs.length : ℚ) - 1) * q = h2
  have h12 : h1 ≤ h2 := by rw [← hh1, ← hh2]; exact mul_le_mul_of_nonneg_left hpq hm
  have h1nn : 0 ≤ h1 := by rw [← hh1]; positivity
  have h2nn : 0 ≤ h2 := le_trans h1nn h12
  have h2le : h2 ≤ (xs.length : ℚ) - 1 := by
    rw [← hh2]
    calc ((xs.length : ℚ) - 1) * q ≤ ((xs.length : ℚ) - 1) * 1 :=
          mul_le_mul_of_nonneg_left hq.le hm
      _ = _ := mul_one _
  have key : ∀ h : ℚ, 0 ≤ h → h ≤ (xs.length : ℚ) - 1 →
      ((⌊h⌋.toNat : ℕ) : ℚ) ≤ h ∧ h < ((⌊h⌋.toNat : ℕ) : ℚ) + 1 ∧ ⌊h⌋.toNat ≤ xs.length - 1 := by
    intro h h0 hl
    have hf : 0 ≤ ⌊h⌋ := Int.floor_nonneg.2 h0
    have e : ((⌊h⌋.toNat : ℕ) : ℚ) = ((⌊h⌋ : ℤ) : ℚ) := by
      have : ((⌊h⌋.toNat : ℕ) : ℤ) = ⌊h⌋ := Int.toNat_of_nonneg hf
      exact_mod_cast congrArg (fun z : ℤ => (z : ℚ)) this
    have a1 : ((⌊h⌋.toNat : ℕ) : ℚ) ≤ h := e ▸ Int.floor_le h
    refine ⟨a1, e ▸ Int.lt_floor_add_one h, ?_⟩
    have : ((⌊h⌋.toNat : ℕ) : ℚ) ≤ ((xs.length - 1 : ℕ) : ℚ) := by
      rw [Nat.cast_sub hlen]
      push_cast
      linarith
    exact_mod_cast this
  obtain ⟨a1, a2, a3⟩ := key h1 h1nn (le_trans h12 h2le)
  obtain ⟨b1, b2, b3⟩ := key h2 h2nn h2le
  generalize ⌊h1⌋.toNat = i at *
  generalize ⌊h2⌋.toNat = j at *
  have hij : i ≤ j := by
    have : (i : ℚ) < (j : ℚ) + 1 := by linarith
    have : i < j + 1 := by exact_mod_cast this
    omega
  have hloi : xs.getD i 0 ≤ xs.getD (min (i + 1) (xs.length - 1)) 0 :=
    getD_mono hs (by omega) (by omega)
  have hloj : xs.getD j 0 ≤ xs.getD (min (j + 1) (xs.length - 1)) 0 :=
    getD_mono hs (by omega) (by omega)
  rcases hij.eq_or_lt with rfl | hlt
  · have := mul_le_mul_of_nonneg_right (show h1 - (i : ℚ) ≤ h2 - (i : ℚ) by linarith)
      (show 0 ≤ xs.getD (min (i + 1) (xs.length - 1)) 0 - xs.getD i 0 by linarith)
    linarith
  · have c1 : xs.getD (min (i + 1) (xs.length - 1)) 0 ≤ xs.getD j 0 :=
      getD_mono hs (by omega) (by omega)
    have c2 := mul_le_mul_of_nonneg_right (show h1 - (i : ℚ) ≤ 1 by linarith)
      (show 0 ≤ xs.getD (min (i + 1) (xs.length - 1)) 0 - xs.getD i 0 by linarith)
    have c3 := mul_nonneg (show 0 ≤ h2 - (j : ℚ) by linarith)
      (show 0 ≤ xs.getD (min (j + 1) (xs.length - 1)) 0 - xs.getD j 0 by linarith)
    linarith

theorem quantileKnots_sorted {x : List ℚ} (hne : x ≠ []) (n : ℕ) :
    (quantileKnots x n).Pairwise (· ≤ ·) := by
  unfold quantileKnots
  rw [List.pairwise_map]
  have h := linspaceInterior_strict (show (0 : ℚ) < 1 by norm_num) n
  refine List.Pairwise.imp_of_mem ?_ h
  intro p q hp hq hpq
  exact quantile_mono (sortQ_sorted x) (fun e => hne (sortQ_eq_nil.1 e))
    (linspaceInterior_mem (by norm_num) hp).1.le hpq.le (linspaceInterior_mem (by norm_num) hq).2

/-- The default internal knots: as many as requested, strictly increasing, strictly inside. -/
theorem defaultInternal_spec {x : List ℚ} {lo hi : ℚ} (hlt : lo < hi) (n : ℕ)
    (hin : ∃ v ∈ x, lo ≤ v ∧ v ≤ hi) :
    (defaultInternal x lo hi n).length = n ∧
    (defaultInternal x lo hi n).Pairwise (· < ·) ∧
    ∀ k ∈ defaultInternal x lo hi n, lo < k ∧ k < hi := by
  have hins : x.filter (fun v => decide (lo ≤ v) && decide (v ≤ hi)) ≠ [] := by
    obtain ⟨v, hv, h1, h2⟩ := hin
    refine List.ne_nil_of_mem (a := v) ?_
    rw [List.mem_filter]
    exact ⟨hv, by simp [h1, h2]⟩
  unfold defaultInternal
  dsimp only
  split
  · rename_i h; subst h; simp
  · have hlin := (⟨linspaceInterior_length lo hi n, linspaceInterior_strict hlt n,
      fun k hk => linspaceInterior_mem hlt hk⟩ :
      (linspaceInterior lo hi n).length = n ∧ (linspaceInterior lo hi n).Pairwise (· < ·) ∧
        ∀ k ∈ linspaceInterior lo hi n, lo < k ∧ k < hi)
    split
    · exact hlin
    · rename_i hd
      split
      · exact hlin
      · rename_i hb
        push Not at hb
        have hnd := hasDup_eq_false.1 (by simpa using hd)
        refine ⟨by simp [quantileKnots, linspaceInterior_length], ?_, ?_⟩
        · exact ((quantileKnots_sorted hins n).and hnd).imp (fun h => lt_of_le_of_ne h.1 h.2)
        · intro k hk
          exact ⟨lt_of_lt_of_le hb.1 (minQ_le hk), lt_of_le_of_lt (le_maxQ hk) hb.2⟩

/-- A construction from `df` that settles the boundary at `lo, hi`, with some x between them, is
consistent and has exactly the requested degrees of freedom. -/
theorem good_initDf {x : List ℚ} {boundary : Option (List ℚ)} {d df : ℕ} {lo hi : ℚ}
    (hok : (init (some x) none boundary none d (some df)).1 = none)
    (hb : (init (some x) none boundary none d (some df)).2.boundary = some (lo, hi))
    (hin : ∃ v ∈ x, lo ≤ v ∧ v ≤ hi) :
    Good (init (some x) none boundary none d (some df)).2 ∧
    (init (some x) none boundary none d (some df)).2.df = df ∧
    (init (some x) none boundary none d (some df)).2.internal.length + (d + 1) = df ∧
    (init (some x) none boundary none d (some df)).2.internal.Nodup ∧
    (init (some x) none boundary none d (some df)).2.degree = d := by
  have h0 : init (some x) none boundary none d (some df) = initDf (blank (some x) d) boundary df := by
    unfold init
    rw [if_neg (by omega)]
    simp
  rw [h0] at hok hb ⊢
  unfold initDf at hok hb ⊢
  dsimp only [blank, State.order] at hok hb ⊢
  by_cases hdf : df < d + 1
  · simp [hdf] at hok
  · simp only [hdf, if_false] at hok hb ⊢
    generalize hs0 : (State.mk (some x) [] none d df none false false false none false) = s0
      at hok hb ⊢
    have hbn : ∀ p, s0.boundary = some p → p.1 < p.2 := by
      intro p hp; rw [← hs0] at hp; simp at hp
    obtain ⟨bd, hbd, hlt, -⟩ := simplifyBoundary_spec s0 boundary
    have hlt' := hlt hbn
    have hsi : ∀ s : State, simplifyInternal s [] = (none, { s with internal := [], mult := false }) :=
      fun s => by simp [simplifyInternal]
    unfold simplifyKnots at hok hb ⊢
    rcases hsb : simplifyBoundary s0 boundary with ⟨_ | e, s'⟩
    · simp only [hsb] at hok hb hbd ⊢
      rw [hsi] at hok hb ⊢
      dsimp only at hok hb ⊢
      have hs'b : s'.boundary = bd := by rw [hbd]
      have hs' : s'.latest = false ∧ s'.ext = false ∧ s'.xLatest = false ∧ s'.degree = d ∧
          s'.df = df := by rw [hbd, ← hs0]; exact ⟨rfl, rfl, rfl, rfl, rfl⟩
      rcases hbb : s'.boundary with _ | ⟨l, h⟩
      · simp only [hbb] at hok
        simp [updateKnots, hs', setSimple, hbb] at hok
      · simp only [hbb] at hok hb ⊢
        have hord : s'.order = d + 1 := by simp [State.order, hs'.2.2.2.1]
        have e1 : l = lo ∧ h = hi := by
          simp [updateKnots, hs', setSimple] at hb
          exact hb
        obtain ⟨rfl, rfl⟩ := e1
        have hlh : l < h := hlt' (l, h) (by rw [← hs'b, hbb])
        obtain ⟨g1, g2, g3⟩ := defaultInternal_spec (x := x) hlh (df - (d + 1)) hin
        have gg : Good ({ s' with
            internal := defaultInternal x l h (df - (d + 1))
            mult := if df - (d + 1) = 0 then false
              else hasDup (defaultInternal x l h (df - (d + 1)) ++ [l, h]) } : State) := by
          refine ⟨hs'.2.1, ?_, g2.imp le_of_lt, ?_, ?_, ?_, ?_⟩
          · show s'.df = (defaultInternal x l h (df - (d + 1))).length + s'.order
            rw [g1, hord, hs'.2.2.2.2]; omega
          · intro p hp
            simp only [hbb] at hp
            cases hp; exact hlh
          · intro k hk
            exact ⟨(l, h), hbb, g3 k hk⟩
          · intro hl; simp [hs'.1] at hl
          · intro hl; simp [hs'.2.2.1] at hl
        have gu := good_updateKnots gg
        simp only [hbb] at gg gu
        refine ⟨?_, ?_, ?_, ?_, ?_⟩
        · exact gu
        all_goals simp only [updateKnots, hs'.1, hs'.2.1, setSimple, Bool.false_eq_true, false_and,
          if_false]
        · exact hs'.2.2.2.2
        · rw [g1]; omega
        · exact g2.imp ne_of_lt
        · exact hs'.2.2.2.1
    · simp only [hsb] at hok; simp at hok

/-- **C67 (degrees of freedom requested).** Construct a spline with `df` degrees of freedom and
degree `d`; if some x lies between the boundary knots, the object has exactly `df - d - 1` distinct
internal knots, reports `df`, its knot sequence has `df + d + 1` entries and its basis `df` columns. -/
theorem C67_requested_df {x : List ℚ} {boundary : Option (List ℚ)} {d df : ℕ} {lo hi : ℚ} {s : State}
    (hok : init (some x) none boundary none d (some df) = (none, s))
    (hb : s.boundary = some (lo, hi)) (hin : ∃ v ∈ x, lo ≤ v ∧ v ≤ hi) :
    s.df = df ∧ s.internal.length + d + 1 = df ∧ s.internal.Nodup ∧
    (∀ k ∈ s.internal, lo < k ∧ k < hi) ∧
    (∃ K, knotSequence s = .ok (some K) ∧ K.length = df + d + 1 ∧ K.Pairwise (· ≤ ·)) ∧
    basisCols s = .ok df := by
  have h1 : (init (some x) none boundary none d (some df)).1 = none := by rw [hok]
  have h2 : (init (some x) none boundary none d (some df)).2 = s := by rw [hok]
  obtain ⟨hg, hdf, hlen, hnd, hdeg⟩ := good_initDf h1 (by rw [h2]; exact hb) hin
  rw [h2] at hg hdf hlen hnd hdeg
  have hin' : ∀ k ∈ s.internal, lo < k ∧ k < hi := by
    intro k hk
    obtain ⟨p, hp, a, b⟩ := hg.inside k hk
    rw [hb] at hp; cases hp
    exact ⟨a, b⟩
  refine ⟨hdf, by omega, hnd, hin', ⟨_, good_knotSequence hg hb, ?_,
    simpleKnots_sorted _ hg.sorted (hg.bnd _ hb) hin'⟩, ?_⟩
  · rw [simpleKnots_length]; simp only [State.order, hdeg]; omega
  · have : (updateKnots s).1 = none ∧
        (updateKnots s).2.knots = some (simpleKnots lo hi s.internal s.order) ∧
        (updateKnots s).2.degree = d ∧ (updateKnots s).2.ext = false := by
      unfold updateKnots
      split
      · rename_i h
        obtain ⟨p, hp, hk⟩ := hg.latest h.1
        rw [hb] at hp; cases hp
        exact ⟨rfl, hk, hdeg, hg.ext⟩
      · rw [hg.ext]
        simp [setSimple, hb, hdeg, hg.ext]
    unfold basisCols
    rcases hu : updateKnots s with ⟨_ | e, s'⟩
    · rw [hu] at this
      dsimp only at this ⊢
      rw [this.2.2.2, this.2.1, this.2.2.1]
      simp only [Option.getD_some, simpleKnots_length, Bool.false_eq_true, if_false,
        State.order, hdeg]
      congr 1
      omega
    · rw [hu] at this; simp at this

example : ∃ s, init (some [0, 1, 2, 4]) none none none (2 : ℕ) (some 5) = (none, s) ∧
    s.boundary = some (0, 4) ∧ s.internal = [1, 2] ∧
    ∃ v ∈ ([0, 1, 2, 4] : List ℚ), 0 ≤ v ∧ v ≤ 4 := by
  refine ⟨(init (some [0, 1, 2, 4]) none none none (2 : ℕ) (some 5)).2, ?_⟩
  decide +kernel

/-- **C67 (violated without data inside).** If no x lies between the boundary knots, the object is
built without internal knots but still reports the requested degrees of freedom: the basis has
fewer columns than `spline_df`. -/
theorem C67_no_data_inside_violated : ∃ s,
    init (some [0, 1, 2]) none (some [5, 10]) none 3 (some 6) = (none, s) ∧
    s.df = 6 ∧ s.internal = [] ∧ basisCols s = .ok 4 := by
  refine ⟨(init (some [0, 1, 2]) none (some [5, 10]) none 3 (some 6)).2, ?_⟩
  decide +kernel

/-- **C66 for objects constructed from `df`.** The history theorem also holds when the object was
constructed from its degrees of freedom. -/
theorem C66_no_stale_caches_df {x : List ℚ} {boundary : Option (List ℚ)} {d df : ℕ} {lo hi : ℚ}
    {s s' : State} (ops : List Op)
    (hok : init (some x) none boundary none d (some df) = (none, s))
    (hb : s.boundary = some (lo, hi)) (hin : ∃ v ∈ x, lo ≤ v ∧ v ≤ hi)
    (ha : AdmissibleRun s ops) (hrun : run s ops = s') (hb' : s'.boundary ≠ none) :
    (fresh s').1 = none ∧ knotSequence s' = knotSequence (fresh s').2 ∧
    s'.df = (fresh s').2.df ∧ xIndexOf s' = xIndexOf (fresh s').2 := by
  have h1 : (init (some x) none boundary none d (some df)).1 = none := by rw [hok]
  have h2 : (init (some x) none boundary none d (some df)).2 = s := by rw [hok]
  obtain ⟨hg0, -⟩ := good_initDf h1 (by rw [h2]; exact hb) hin
  rw [h2] at hg0
  have hg := good_run hg0 ops ha
  rw [hrun] at hg
  obtain ⟨p, hp⟩ := Option.ne_none_iff_exists'.1 hb'
  obtain ⟨h1, h2, h3, h4, h5, h6⟩ := fresh_spec hg hp
  refine ⟨h1, ?_, ?_, ?_⟩
  · rw [good_knotSequence hg hp, good_knotSequence h2 (h5.trans hp), h4]
    simp only [State.order, h6]
  · rw [hg.df, h2.df, h4]
    simp only [State.order, h6]
  · rw [good_xIndex hg, good_xIndex h2, h3, h4]

example : ∃ s, init (some [0, 1, 2, 4]) none none none (2 : ℕ) (some 5) = (none, s) ∧
    AdmissibleRun s [.setX [3], .setDegree 1, .setInternal none] ∧
    knotSequence (run s [.setX [3], .setDegree 1, .setInternal none]) = .ok (some [0, 0, 4, 4]) ∧
    xIndexOf (run s [.setX [3], .setDegree 1]) = some [2] := by
  refine ⟨(init (some [0, 1, 2, 4]) none none none (2 : ℕ) (some 5)).2, by decide +kernel,
    ⟨trivial, trivial, trivial, trivial⟩, by decide +kernel, by decide +kernel⟩

end Verif.Spline
