import Verif.Boot.Model
import Verif.Boot.QuantModel
import Mathlib.Algebra.BigOperators.Fin
import Mathlib.Tactic.Linarith
import Mathlib.Tactic.NormNum
import Mathlib.Tactic.Ring
import Mathlib.Analysis.Real.Sqrt

set_option linter.unusedSectionVars false
set_option linter.unusedSimpArgs false

/-!
# `random_state`: which results can be reproduced (C268)

`numpy.random.default_rng(random_state)` is called with an integer, with a generator, or with nothing; in the last case it takes fresh
entropy from the operating system.  The model makes that entropy explicit.
-/

namespace Verif.Boot.Seed

section
variable {K : Type*} [Field K] {κ S : Type*}

/-! ## Model -/

/-- Where generators come from: `seeded k` is `default_rng(k)`; `os c` is what the `c`-th call of `default_rng(None)` of the process returns. -/
structure World (S : Type*) where
  seeded : ℕ → S
  os : ℕ → S

/-- `np.random.default_rng(random_state)` for an integer or `None`, `numba_utils.py:299`, `process_panel.py:132, 193`: the generator, and the
number of entropy requests so far. -/
def start (W : World S) (src : Option ℕ) (c : ℕ) : S × ℕ :=
  match src with
  | some k => (W.seeded k, c)
  | none => (W.os c, c + 1)

/-- `mboot` with a generator, `mboot.py:80-92` (without clusters), `numba_utils.py:299-317`: the draws, and the generator afterwards. -/
def bootWith (g : Rng S) (m1 m2 : K) (biters : ℕ) (inf : List (κ → K)) (s : S) : List (κ → K) × S :=
  let m := takeMat g inf.length biters s
  (m.1.map (drawNb m1 m2 inf), m.2)

/-- Calls of `mboot` one after the other, all with the same integer or all with `None`: each makes its own generator. -/
def callsFresh (g : Rng S) (m1 m2 : K) (biters : ℕ) (W : World S) (src : Option ℕ) : List (List (κ → K)) → ℕ → List (List (κ → K)) × ℕ
  | [], c => ([], c)
  | inf :: rest, c =>
    let r := callsFresh g m1 m2 biters W src rest (start W src c).2
    ((bootWith g m1 m2 biters inf (start W src c).1).1 :: r.1, r.2)

/-- Calls of `mboot` one after the other that share one generator. -/
def callsShared (g : Rng S) (m1 m2 : K) (biters : ℕ) : List (List (κ → K)) → S → List (List (κ → K))
  | [], _ => []
  | inf :: rest, s =>
    (bootWith g m1 m2 biters inf s).1 :: callsShared g m1 m2 biters rest (bootWith g m1 m2 biters inf s).2

/-- `att_gt(bstrap=True, random_state=src)`, `att_gt.py:426-433`. -/
def attGt (g : Rng S) (m1 m2 : K) (biters : ℕ) (W : World S) (src : Option ℕ) (c : ℕ) (cells : List (κ → K)) : List (List (κ → K)) :=
  (callsFresh g m1 m2 biters W src [cells] c).1

/-- `aggte(bstrap=True, random_state=src)`, `compute_aggte.py:102-109, 884-893, 950-957`: effects by event time, group or period, then the
overall effect. -/
def aggte (g : Rng S) (m1 m2 : K) (biters : ℕ) (W : World S) (src : Option ℕ) (c : ℕ) (effects overall : List (κ → K)) :
    List (List (κ → K)) := (callsFresh g m1 m2 biters W src [effects, overall] c).1

/-- `cont_did(aggregation="dose", random_state=src)`, `process_panel.py:132-133`, `process_dose.py:54, 95-115, 170-179`: one generator for cells,
overall effects and dose responses. -/
def contDose (g : Rng S) (m1 m2 : K) (biters : ℕ) (W : World S) (src : Option ℕ) (c : ℕ) (infs : List (List (κ → K))) : List (List (κ → K)) :=
  callsShared g m1 m2 biters infs (start W src c).1

/-- `cont_did(aggregation="eventstudy", random_state=src)`, `process_panel.py:193-213`, `process_aggte.py:241-277, 461`: the cells use the
generator of `random_state`; `aggregate_att_gt` has no such argument, so one call per event time, one for the band and one for the overall
effect are made with `None`.  The overall part is also that of `dose_est_method="cck"`, `cont_did.py:781-795`. -/
def contEvent (g : Rng S) (m1 m2 : K) (biters : ℕ) (W : World S) (src : Option ℕ) (c : ℕ) (cells : List (κ → K)) (agg : List (List (κ → K))) :
    List (List (κ → K)) × List (List (κ → K)) :=
  (callsShared g m1 m2 biters [cells] (start W src c).1, (callsFresh g m1 m2 biters W none agg (start W src c).2).1)

end

/-- Standard error of one column of the draws, `mboot.py:94-108`; `r` is the root of the number of units. -/
noncomputable def seOf {κ : Type*} (tol r : ℝ) (draws : List (κ → ℝ)) (j : κ) : Option ℝ :=
  mbootSe tol r (fun b : Fin draws.length => r * draws[b] j)

/-- Codes of a pair of cluster variables, `att_gt.py:421-424`: position in the list of distinct labels, in whatever order `unique()`
returns them. -/
def codes {α : Type*} [DecidableEq α] (order labels : List α) : List ℤ := labels.map fun l => (order.idxOf l : ℤ)

/-! ## C268 -/

section
variable {K : Type*} [Field K] {κ S : Type*}

theorem callsFresh_seeded (g : Rng S) (m1 m2 : K) (B : ℕ) (W W' : World S) (h : W.seeded = W'.seeded) (k : ℕ) (infs : List (List (κ → K)))
    (c c' : ℕ) : (callsFresh g m1 m2 B W (some k) infs c).1 = (callsFresh g m1 m2 B W' (some k) infs c').1 := by
  induction infs generalizing c c' with
  | nil => rfl
  | cons inf rest ih =>
    simp only [callsFresh, start, h]
    rw [ih]

/-- **C268.**  With an integer `random_state`, the bootstrap draws of `att_gt`, of `aggte`, of `cont_did` for dose responses, and of the cells
of a `cont_did` event study are the same in every run, whatever entropy the machine delivers and however often it was asked before. -/
theorem C268_reproducible (g : Rng S) (m1 m2 : K) (B : ℕ) (W W' : World S) (h : W.seeded = W'.seeded) (k c c' : ℕ)
    (cells effects overall : List (κ → K)) (infs agg agg' : List (List (κ → K))) :
    attGt g m1 m2 B W (some k) c cells = attGt g m1 m2 B W' (some k) c' cells ∧
    aggte g m1 m2 B W (some k) c effects overall = aggte g m1 m2 B W' (some k) c' effects overall ∧
    contDose g m1 m2 B W (some k) c infs = contDose g m1 m2 B W' (some k) c' infs ∧
    (contEvent g m1 m2 B W (some k) c cells agg).1 = (contEvent g m1 m2 B W' (some k) c' cells agg').1 := by
  refine ⟨callsFresh_seeded g m1 m2 B W W' h k _ c c', callsFresh_seeded g m1 m2 B W W' h k _ c c', ?_, ?_⟩
  · simp only [contDose, start, h]
  · simp only [contEvent, start, h]

/-- **C268.**  An effect of `aggte` that rests on a single cell (the same column of influence values) gets the draws of that cell in `att_gt`
if both are given the same integer. -/
theorem C268_same_column {ν : Type*} (g : Rng S) (m1 m2 : K) (B : ℕ) (W : World S) (k c c' : ℕ) (cells : List (κ → K)) (effects : List (ν → K))
    (overall : List (ν → K)) (j : κ) (j' : ν) (hcol : cells.map (fun r => r j) = effects.map (fun r => r j')) :
    ((attGt g m1 m2 B W (some k) c cells).headD []).map (fun d => d j) =
      ((aggte g m1 m2 B W (some k) c' effects overall).headD []).map (fun d => d j') := by
  have hlen : cells.length = effects.length := by simpa using congrArg List.length hcol
  have hdraw : ∀ bits, drawNb m1 m2 cells bits j = drawNb m1 m2 effects bits j' := by
    intro bits
    have key : ∀ (a : List (κ → K)) (b : List (ν → K)) (bits : List Bool) (t : K), a.map (fun r => r j) = b.map (fun r => r j') →
        drawLoop m1 m2 j t a bits = drawLoop m1 m2 j' t b bits := by
      intro a
      induction a with
      | nil =>
        intro b bits t hab
        cases b with
        | nil => simp [drawLoop]
        | cons _ _ => simp at hab
      | cons x a ih =>
        intro b bits t hab
        cases b with
        | nil => simp at hab
        | cons y b =>
          simp only [List.map_cons, List.cons.injEq] at hab
          cases bits with
          | nil => simp [drawLoop]
          | cons v bits =>
            simp only [drawLoop, hab.1]
            exact ih b bits _ hab.2
    simp only [drawNb, hlen]
    rw [key cells effects bits 0 hcol]
  simp only [attGt, aggte, callsFresh, start, bootWith, List.headD_cons, List.map_map, hlen]
  refine List.map_congr_left ?_
  intro bits _
  exact hdraw bits

/-- **C268.**  (Violated.)  The seed has no influence on the event-time effects, the band and the overall effect of a `cont_did` event study
(nor on the overall effect of the cck estimator): two different seeds give the same draws, and only the machine's entropy matters. -/
theorem C268_seed_ignored_violated (g : Rng S) (m1 m2 : K) (B : ℕ) (W W' : World S) (h : W.os = W'.os) (k k' c : ℕ)
    (cells cells' : List (κ → K)) (agg : List (List (κ → K))) :
    (contEvent g m1 m2 B W (some k) c cells agg).2 = (contEvent g m1 m2 B W' (some k') c cells' agg).2 := by
  simp only [contEvent, start]
  have key : ∀ (infs : List (List (κ → K))) (c : ℕ), callsFresh g m1 m2 B W none infs c = callsFresh g m1 m2 B W' none infs c := by
    intro infs
    induction infs with
    | nil => intro c; rfl
    | cons inf rest ih => intro c; simp only [callsFresh, start, h, ih]
  rw [key]

end

/-- A generator that reads its variates from a list. -/
def tape : Rng (List Bool) where
  next
    | [] => (false, [])
    | b :: l => (b, l)

/-- Two machines with the same seeded generators and different entropy. -/
def exWorld (l : List Bool) : World (List Bool) := ⟨fun _ => [true], fun _ => l⟩

/-- Two units; the estimate rests on the first. -/
def exInf : List (Unit → ℝ) := [fun _ => 1, fun _ => 0]

example : (exWorld [true]).seeded = (exWorld [false]).seeded ∧ (exWorld [true]).os ≠ (exWorld [false]).os :=
  ⟨rfl, fun h => by simpa [exWorld] using congrFun h 0⟩

theorem sort_two (a b : ℝ) : [a, b].insertionSort (· ≤ ·) = [min a b, max a b] := by
  rcases le_total a b with h | h
  · simp [List.insertionSort, List.orderedInsert, h]
  · rcases h.lt_or_eq with h' | h'
    · simp [List.insertionSort, List.orderedInsert, not_le.mpr h', h]
    · subst h'; simp [List.insertionSort, List.orderedInsert]

theorem percentile_two (q a b : ℝ) (h0 : 0 ≤ q) (h1 : q < 1) : percentile q [a, b] = min a b + q * (max a b - min a b) := by
  have hfl : ⌊q⌋₊ = 0 := Nat.floor_eq_zero.mpr h1
  simp only [percentile, sort_two]
  simp [hfl]

theorem iqr_two (f : Fin 2 → ℝ) : iqrSigma f = |f 1 - f 0| / 2 / normIqr := by
  have : List.ofFn f = [f 0, f 1] := by simp [List.ofFn_succ]
  rw [iqrSigma, this, percentile_two _ _ _ (by norm_num) (by norm_num), percentile_two _ _ _ (by norm_num) (by norm_num)]
  rcases le_total (f 0) (f 1) with h | h
  · rw [min_eq_left h, max_eq_right h, abs_of_nonneg (by linarith)]; ring
  · rw [min_eq_right h, max_eq_left h, abs_of_nonpos (by linarith)]; ring

theorem k_diff : k2 - k1 = √5 := by unfold k1 k2; ring

theorem k_sq : k1 ^ 2 + k2 ^ 2 = 3 := by
  have := Real.sq_sqrt (show (0 : ℝ) ≤ 5 by norm_num)
  unfold k1 k2
  ring_nf
  rw [this]; norm_num

/-- The two draws of `exInf`. -/
theorem draws_two (a b c d : Bool) :
    (bootWith tape k1 k2 2 exInf [a, b, c, d]).1 = [fun _ => mult a / 2, fun _ => mult c / 2] := by
  simp only [bootWith, exInf, List.length_cons, List.length_nil, takeMat, takeRow, tape, List.map_cons, List.map_nil]
  congr 1
  · funext j; simp [drawNb, drawLoop, mult]
  · congr 1; funext j; simp [drawNb, drawLoop, mult]

theorem se_two (tol : ℝ) (ht : tol < 1) (x y : ℝ) (h : x ^ 2 + y ^ 2 = 3) :
    seOf tol (√2) [fun _ : Unit => x / 2, fun _ => y / 2] () = some (|√2 * (y / 2) - √2 * (x / 2)| / 2 / normIqr / √2) := by
  have h2 := Real.sq_sqrt (show (0 : ℝ) ≤ 2 by norm_num)
  unfold seOf mbootSe
  rw [if_pos]
  · rw [iqr_two]; rfl
  · simp only [nondegenerate, decide_eq_true_eq]
    have : (∑ i : Fin [fun _ : Unit => x / 2, fun _ => y / 2].length, (√2 * [fun _ : Unit => x / 2, fun _ => y / 2][i] ()) ^ 2) = 3 / 2 := by
      show (∑ i : Fin 2, _) = _
      rw [Fin.sum_univ_two]
      show (√2 * (x / 2)) ^ 2 + (√2 * (y / 2)) ^ 2 = 3 / 2
      rw [mul_pow, mul_pow, h2]
      linarith
    rw [this]; linarith

theorem se_equal (tol : ℝ) (x : ℝ) :
    seOf tol (√2) [fun _ : Unit => x / 2, fun _ => x / 2] () = none ∨ seOf tol (√2) [fun _ : Unit => x / 2, fun _ => x / 2] () = some 0 := by
  unfold seOf mbootSe
  split_ifs
  · right
    rw [iqr_two]
    show some (|√2 * (x / 2) - √2 * (x / 2)| / 2 / normIqr / √2) = some 0
    simp
  · left; rfl

theorem se_pos_ne (x y : ℝ) (h : x ≠ y) : |√2 * (y / 2) - √2 * (x / 2)| / 2 / normIqr / √2 ≠ (0 : ℝ) := by
  have h2 : (√2 : ℝ) ≠ 0 := by positivity
  have hne : √2 * (y / 2) - √2 * (x / 2) ≠ 0 := by
    intro h0
    have : √2 * ((y - x) / 2) = 0 := by linarith
    rcases mul_eq_zero.mp this with h3 | h3
    · exact h2 h3
    · exact h (by linarith)
  have h3 : |√2 * (y / 2) - √2 * (x / 2)| ≠ 0 := abs_ne_zero.mpr hne
  have h4 : (normIqr : ℝ) ≠ 0 := by unfold normIqr; norm_num
  exact div_ne_zero (div_ne_zero (div_ne_zero h3 (by norm_num)) h4) h2

theorem k_ne : k1 ≠ k2 := by
  intro h
  have := k_diff
  rw [h, sub_self] at this
  have : (0 : ℝ) < √5 := by positivity
  linarith

/-- **C268.**  (Violated.)  The documentation of `cont_did` promises reproducible results for an integer `random_state`; the same event study with
the same seed reports different overall standard errors on two runs. -/
theorem C268_eventstudy_violated (tol : ℝ) (ht : tol < 1) :
    ∃ W W' : World (List Bool), W.seeded = W'.seeded ∧ ∀ k c,
      ((contEvent tape k1 k2 2 W (some k) c exInf [exInf]).2.map fun d => seOf tol (√2) d ()) ≠
        ((contEvent tape k1 k2 2 W' (some k) c exInf [exInf]).2.map fun d => seOf tol (√2) d ()) := by
  refine ⟨exWorld [true, true, false, true], exWorld [true, true, true, true], rfl, ?_⟩
  intro k c
  simp only [contEvent, callsFresh, start, exWorld, draws_two, List.map_cons, List.map_nil, ne_eq, List.cons.injEq, and_true]
  have e1 : mult true = k1 := rfl
  have e2 : mult false = k2 := rfl
  rw [e1, e2, se_two tol ht k1 k2 k_sq]
  rcases se_equal tol k1 with h | h <;> rw [h]
  · simp
  · intro h0
    exact se_pos_ne k1 k2 k_ne (Option.some.inj h0)

/-- **C268.**  (Violated.)  With `clustervars=[idname, v]` the codes of the clusters follow the order in which `unique()` happens to return the
labels, so the draws of a seeded run are attached to different clusters: two orders of the same labels give different standard errors for
the same random numbers. -/
theorem C268_cluster_order_violated (tol : ℝ) (ht : tol < 1) :
    ∃ (labels o o' : List String) (x : List ℝ) (bits : List Bool), o.Perm o' ∧ (∀ l, l ∈ labels → l ∈ o) ∧ o.Nodup ∧
      seOf tol (√2) (bootWith tape k1 k2 2 ((clusterMeans x (codes o labels)).map fun v (_ : Unit) => v) bits).1 () ≠
        seOf tol (√2) (bootWith tape k1 k2 2 ((clusterMeans x (codes o' labels)).map fun v (_ : Unit) => v) bits).1 () := by
  refine ⟨["1_a", "2_a"], ["1_a", "2_a"], ["2_a", "1_a"], [1, 0], [true, true, false, true], List.Perm.swap _ _ _, by simp, by decide, ?_⟩
  have c1 : codes ["1_a", "2_a"] ["1_a", "2_a"] = [0, 1] := by decide
  have c2 : codes ["2_a", "1_a"] ["1_a", "2_a"] = [1, 0] := by decide
  have u1 : uniqueIds [0, 1] = [0, 1] := by decide
  have u2 : uniqueIds [1, 0] = [0, 1] := by decide
  have m1 : (clusterMeans [(1 : ℝ), 0] [0, 1]).map (fun v (_ : Unit) => v) = exInf := by
    simp [clusterMeans, u1, exInf]
  have m2 : (clusterMeans [(1 : ℝ), 0] [1, 0]).map (fun v (_ : Unit) => v) = [fun _ => 0, fun _ => 1] := by
    simp [clusterMeans, u2]
  have d2 : (bootWith tape k1 k2 2 [fun _ : Unit => (0 : ℝ), fun _ => 1] [true, true, false, true]).1 = [fun _ => k1 / 2, fun _ => k1 / 2] := by
    simp only [bootWith, List.length_cons, List.length_nil, takeMat, takeRow, tape, List.map_cons, List.map_nil]
    congr 1
    · funext j; simp [drawNb, drawLoop]
    · congr 1; funext j; simp [drawNb, drawLoop]
  rw [c1, c2, m1, m2, draws_two, d2]
  have e1 : mult true = k1 := rfl
  have e2 : mult false = k2 := rfl
  rw [e1, e2, se_two tol ht k1 k2 k_sq]
  rcases se_equal tol k1 with h | h <;> rw [h]
  · simp
  · intro h0
    exact se_pos_ne k1 k2 k_ne (Option.some.inj h0)

example : (10 : ℝ) * (1 / 2 ^ 26) < 1 := by norm_num

end Verif.Boot.Seed
