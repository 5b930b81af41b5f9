import Verif.Dist.Reduce
import Verif.Boot.Props
import Verif.Boot.Cluster
import Verif.Boot.Quant
import Verif.Boot.Quant2
import Mathlib.Tactic.FieldSimp
import Mathlib.Tactic.Linarith
import Mathlib.Algebra.BigOperators.Fin

/-!
# From influence functions to standard errors and critical values on a cluster of workers

Models the last stage of the distributed `att_gt` and `ddd`: splitting the influence functions, drawing multipliers on
every worker, adding the draws, and turning them into standard errors and the critical value of the bands
(`dask/_bootstrap.py:16-66`, `distributed/_bootstrap.py:10-81`, `dask/_ddd_mp.py:356-391`, `dask/_did_mp.py:336-372`; the
Spark versions `spark/_ddd_mp.py:390-425`, `spark/_did_mp.py:367-403` are the same), beside the single-machine versions
(`didtriple/estimators/ddd_mp.py:287-320`, `did/att_gt.py:391-442,486-491`).  Arithmetic is exact.
-/

set_option linter.unusedSectionVars false
set_option linter.unusedSimpArgs false

namespace Verif.Dist

open Verif.Boot

section Split
variable {α : Type*}

/-- Consecutive pieces of the given sizes. -/
def splitBy : List ℕ → List α → List (List α)
  | [], _ => []
  | s :: ss, l => l.take s :: splitBy ss (l.drop s)

/-- `np.array_split` (the first `n % p` pieces have one element more) without the empty pieces, `dask/_ddd_mp.py:358-359`,
`dask/_did_mp.py:347-352`. -/
def arraySplit (p : ℕ) (l : List α) : List (List α) :=
  (splitBy (List.replicate (l.length % p) (l.length / p + 1) ++ List.replicate (p - l.length % p) (l.length / p)) l).filter
    fun c => !c.isEmpty

theorem splitBy_flatten : ∀ (ss : List ℕ) (l : List α), ss.sum = l.length → (splitBy ss l).flatten = l
  | [], l, h => by
    have : l = [] := List.length_eq_zero_iff.1 (by simpa using h.symm)
    simp [splitBy, this]
  | s :: ss, l, h => by
    simp only [splitBy, List.flatten_cons]
    rw [splitBy_flatten ss (l.drop s) (by simp only [List.sum_cons] at h; simp only [List.length_drop]; omega), List.take_append_drop]

theorem flatten_filter_nonempty (L : List (List α)) : (L.filter fun c => !c.isEmpty).flatten = L.flatten := by
  induction L with
  | nil => rfl
  | cons c L ih => cases c <;> simp [List.filter_cons, ih]

theorem arraySplit_flatten (p : ℕ) (hp : 0 < p) (l : List α) : (arraySplit p l).flatten = l := by
  unfold arraySplit
  rw [flatten_filter_nonempty]
  refine splitBy_flatten _ _ ?_
  rw [List.sum_append, List.sum_replicate, List.sum_replicate]
  have h1 := Nat.mod_add_div l.length p
  have h2 := Nat.mod_lt l.length hp
  simp only [smul_eq_mul]
  generalize l.length % p = r at *
  generalize l.length / p = q at *
  rw [← h1]
  obtain ⟨d, rfl⟩ := Nat.exists_eq_add_of_lt h2
  have : r + d + 1 - r = d + 1 := by omega
  rw [this]
  ring

/-- Pieces are carved off by the same sizes, whatever the entries. -/
theorem splitBy_map {β : Type*} (f : α → β) : ∀ (ss : List ℕ) (l : List α), splitBy ss (l.map f) = (splitBy ss l).map (List.map f)
  | [], _ => rfl
  | s :: ss, l => by
    simp only [splitBy, List.map_cons, ← List.map_take, ← List.map_drop]
    rw [splitBy_map f ss]

theorem arraySplit_map {β : Type*} (f : α → β) (p : ℕ) (l : List α) : arraySplit p (l.map f) = (arraySplit p l).map (List.map f) := by
  unfold arraySplit
  rw [List.length_map, splitBy_map, List.filter_map]
  congr 1
  refine List.filter_congr fun c _ => ?_
  simp [Function.comp]

end Split

section Model
variable {κ : Type*} {B : ℕ}

/-- The multipliers: `draw k n b` are the `n` Bernoulli variables that the generator of worker `k` produces for draw `b`
(`rng.binomial(1, p_kappa, size=n_local)` in the loop of `_local_bootstrap`, `distributed/_bootstrap.py:20-23`). -/
structure Gen (B : ℕ) where
  draw : ℕ → ℕ → Fin B → List Bool
  length_draw : ∀ k n b, (draw k n b).length = n

/-- What every worker gets: its rows and its multipliers for draw `b`. -/
def workerParts (G : Gen B) (parts : List (List (κ → ℝ))) (b : Fin B) : List (List (κ → ℝ) × List Bool) :=
  parts.zipIdx.map fun q => (q.1, G.draw q.2 q.1.length b)

/-- `sqrt(n_total) * total_bres / n_total`, `distributed/_bootstrap.py:55`, after the tree reduction of the workers' sums,
`dask/_bootstrap.py:57-64`. -/
noncomputable def distBres (G : Gen B) (parts : List (List (κ → ℝ))) (n : ℕ) (j : κ) (b : Fin B) : ℝ :=
  √(n : ℝ) * distDraw k1 k2 (workerParts G parts b) (n : ℝ) j

/-- `bres = sqrt(n) * multiplier_bootstrap(...)`, `mboot_ddd.py:81`, `mboot.py:81,92`; `H b` are the multipliers of draw `b`. -/
noncomputable def singleBres (H : Fin B → List Bool) (rows : List (κ → ℝ)) (j : κ) (b : Fin B) : ℝ :=
  √(rows.length : ℝ) * drawPy k1 k2 rows (H b) j

/-- Rows after aggregation by cluster: one row of means per different label, `mboot_ddd.py:75-79`, `mboot.py:83-91`,
`dask/_did_mp.py:338-345`. -/
noncomputable def clusterRows (rows : List (κ → ℝ)) (ids : List ℤ) : List (κ → ℝ) :=
  (uniqueIds ids).map fun c j => labelSum (rows.map fun r => r j) ids c / (ids.count c : ℝ)

/-- Units, or clusters if labels are given. -/
noncomputable def bootRows (rows : List (κ → ℝ)) : Option (List ℤ) → List (κ → ℝ)
  | none => rows
  | some ids => clusterRows rows ids

/-- Options of the inference stage: bootstrap, uniform band, level, normal quantile, `sqrt(eps) * 10`. -/
structure InfOpts where
  boot : Bool
  cband : Bool
  alpha : ℝ
  z : ℝ
  tol : ℝ

/-- `sqrt(diag(inf' inf / n) / n)`, `ddd_mp.py:312-313`, `dask/_ddd_mp.py:380-381`, `att_gt.py:392-393`. -/
noncomputable def analyticSe (rows : List (κ → ℝ)) (j : κ) : ℝ := √((rows.map fun r => r j * r j).sum / rows.length / rows.length)

variable [Fintype κ]

/-- From the draws to the standard errors and the critical value in the triple difference, `ddd_mp.py:303-320`,
`dask/_ddd_mp.py:370-391`: `cellSe` are the standard errors a cell came with. -/
noncomputable def inferReport (o : InfOpts) (cellSe : κ → Option ℝ) (ana : κ → ℝ) (r : ℝ) (bres : κ → Fin B → ℝ) : (κ → Option ℝ) × ℝ :=
  (fun j => if o.boot then dddMpSe o.tol (cellSe j) (mbootDddSe o.tol r (bres j)) else dddMpSe o.tol (cellSe j) (some (ana j)),
   critDddMp o.boot o.cband o.z (mbootDddCrit o.tol o.alpha bres))

/-- Inference of the single-machine multi-period `ddd`, `ddd_mp.py:287-320`. -/
noncomputable def inferDddOne (o : InfOpts) (H : Fin B → List Bool) (cellSe : κ → Option ℝ) (rows : List (κ → ℝ)) (cl : Option (List ℤ)) :
    (κ → Option ℝ) × ℝ :=
  inferReport o cellSe (analyticSe rows) (√((bootRows rows cl).length : ℝ)) (singleBres H (bootRows rows cl))

/-- Inference of the distributed multi-period `ddd`, `dask/_ddd_mp.py:356-391`, on `p` partitions; the cluster labels are an
argument that the code stores in the result and does not use. -/
noncomputable def inferDdd (o : InfOpts) (G : Gen B) (p : ℕ) (cellSe : κ → Option ℝ) (rows : List (κ → ℝ)) (_cl : Option (List ℤ)) :
    (κ → Option ℝ) × ℝ :=
  inferReport o cellSe (analyticSe rows) (√(rows.length : ℝ)) (distBres G (arraySplit p rows) rows.length)

/-- Inference of the single-machine `att_gt`, `att_gt.py:391-442,486-491`: cells without an analytical standard error stay
without one. -/
noncomputable def inferAttGtOne (o : InfOpts) (H : Fin B → List Bool) (rows : List (κ → ℝ)) (cl : Option (List ℤ)) : (κ → Option ℝ) × Option ℝ :=
  let bres := singleBres H (bootRows rows cl)
  (fun j => if o.boot then
      (match reportSe o.tol (some (analyticSe rows j)) with
        | none => none
        | some _ => reportSe o.tol (mbootSe o.tol (√((bootRows rows cl).length : ℝ)) (bres j)))
    else reportSe o.tol (some (analyticSe rows j)),
   critAttGt o.boot o.cband o.z (mbootCrit o.tol o.alpha bres))

/-- Inference of the distributed `att_gt`, `dask/_did_mp.py:336-372`, for cells without a standard error of their own. -/
noncomputable def inferAttGt (o : InfOpts) (G : Gen B) (p : ℕ) (rows : List (κ → ℝ)) (cl : Option (List ℤ)) : (κ → Option ℝ) × ℝ :=
  let brows := bootRows rows cl
  inferReport o (fun _ => none) (analyticSe rows) (√(brows.length : ℝ)) (distBres G (arraySplit p brows) brows.length)

end Model

/-! ## Lemmas -/

section Lemmas
variable {κ : Type*} {B : ℕ}

/-- The multipliers of all workers one after the other. -/
def joined (G : Gen B) (parts : List (List (κ → ℝ))) (b : Fin B) : List Bool := ((workerParts G parts b).map Prod.snd).flatten

theorem workerParts_fst (G : Gen B) (parts : List (List (κ → ℝ))) (b : Fin B) : (workerParts G parts b).map Prod.fst = parts := by
  unfold workerParts
  rw [List.map_map]
  have : ∀ (k : ℕ), (parts.zipIdx k).map (Prod.fst ∘ fun q => (q.1, G.draw q.2 q.1.length b)) = parts := by
    induction parts with
    | nil => intro k; rfl
    | cons c L ih => intro k; rw [List.zipIdx_cons, List.map_cons]; exact congrArg (c :: ·) (ih (k + 1))
  exact this 0

theorem workerParts_len (G : Gen B) (parts : List (List (κ → ℝ))) (b : Fin B) :
    ∀ q ∈ workerParts G parts b, q.1.length = q.2.length := by
  intro q hq
  unfold workerParts at hq
  obtain ⟨x, _, rfl⟩ := List.mem_map.1 hq
  exact (G.length_draw _ _ _).symm

theorem length_flatten_eq {α β : Type*} : ∀ (L : List (List α × List β)), (∀ q ∈ L, q.1.length = q.2.length) →
    (L.map Prod.snd).flatten.length = (L.map Prod.fst).flatten.length
  | [], _ => rfl
  | q :: L, h => by
    simp only [List.map_cons, List.flatten_cons, List.length_append]
    rw [length_flatten_eq L fun x hx => h x (List.mem_cons_of_mem _ hx), h q (List.mem_cons_self)]

theorem joined_length (G : Gen B) (parts : List (List (κ → ℝ))) (b : Fin B) : (joined G parts b).length = parts.flatten.length := by
  unfold joined
  rw [length_flatten_eq _ (workerParts_len G parts b), workerParts_fst]

theorem distBres_eq (G : Gen B) (p : ℕ) (hp : 0 < p) (rows : List (κ → ℝ)) :
    distBres G (arraySplit p rows) rows.length = singleBres (joined G (arraySplit p rows)) rows := by
  funext j b
  unfold distBres singleBres
  have h := C44_bootstrap_draw k1 k2 (workerParts G (arraySplit p rows) b) (workerParts_len G _ b) j
  rw [workerParts_fst, arraySplit_flatten p hp] at h
  rw [h]
  rfl

/-- Multipliers of one machine dealt out to `p` workers. -/
def dealt (p : ℕ) (H : Fin B → List Bool) : Gen B where
  draw k m b := if ((arraySplit p (H b)).getD k []).length = m then (arraySplit p (H b)).getD k [] else List.replicate m false
  length_draw k m b := by
    split_ifs with h
    · exact h
    · simp

theorem arraySplit_lengths {α β : Type*} (p : ℕ) (l : List α) (m : List β) (h : l.length = m.length) :
    (arraySplit p l).map List.length = (arraySplit p m).map List.length := by
  have h1 : l.map (fun _ => ()) = m.map (fun _ => ()) := by
    rw [List.map_const', List.map_const', h]
  have h2 := congrArg (fun x => (arraySplit p x).map List.length) h1
  simp only [arraySplit_map, List.map_map] at h2
  have h3 : ∀ γ : Type _, (List.length ∘ List.map fun _ : γ => ()) = List.length := fun γ => funext fun x => List.length_map _
  rw [h3, show (List.length ∘ List.map fun _ : β => ()) = List.length from funext fun x => List.length_map _] at h2
  exact h2

theorem joined_dealt (p : ℕ) (hp : 0 < p) (H : Fin B → List Bool) (rows : List (κ → ℝ)) (hH : ∀ b, (H b).length = rows.length) :
    joined (dealt p H) (arraySplit p rows) = H := by
  funext b
  have hl := arraySplit_lengths p rows (H b) (hH b).symm
  have key : (workerParts (dealt p H) (arraySplit p rows) b).map Prod.snd = arraySplit p (H b) := by
    unfold workerParts
    rw [List.map_map]
    have hlen : (arraySplit p rows).length = (arraySplit p (H b)).length := by simpa using congrArg List.length hl
    refine List.ext_getElem (by simpa using hlen) fun i h1 h2 => ?_
    have hi : ((arraySplit p (H b))[i]).length = ((arraySplit p rows)[i]'(by omega)).length := by
      have := congrArg (fun x => x[i]?) hl
      simp only [List.getElem?_map] at this
      rw [List.getElem?_eq_getElem (by omega), List.getElem?_eq_getElem h2] at this
      simpa using this.symm
    simp [dealt, h2, hi]
  unfold joined
  rw [key, arraySplit_flatten p hp]

/-- The sum of squares over the list. -/
theorem draw_sq {κ : Type*} (rows : List (κ → ℝ)) (j : κ) :
    expect (ι := Fin rows.length) (fun b => drawPy k1 k2 rows (List.ofFn b) j ^ 2) =
      (rows.map fun r => r j ^ 2).sum / (rows.length : ℝ) ^ 2 := by
  have h := (C77_draw_variance (ι := Fin rows.length) fun i => rows[i] j).2
  have e : (fun b : Fin rows.length → Bool => drawPy k1 k2 rows (List.ofFn b) j ^ 2) =
      fun b => drawMean (fun i : Fin rows.length => rows[i] j) b ^ 2 := by
    funext b
    congr 1
    unfold drawPy drawMean
    rw [Fintype.card_fin]
    congr 1
    have : List.zipWith (fun (r : κ → ℝ) v => r j * v) rows ((List.ofFn b).map fun c => if c then k1 else k2) =
        List.ofFn fun i : Fin rows.length => rows[i] j * mult (b i) := by
      refine List.ext_getElem (by simp) fun i h1 h2 => ?_
      simp [mult]
    rw [this, List.sum_ofFn]
  rw [e, h, Fintype.card_fin]
  congr 1
  rw [← List.sum_ofFn]
  congr 1
  refine List.ext_getElem (by simp) fun i h1 h2 => ?_
  simp

end Lemmas

/-! ## C279 -/

section Props
variable {κ : Type*} [Fintype κ] {B : ℕ}

/-- **C279.**  Distributed triple difference, bootstrap or not: for every number of partitions and all multipliers the workers draw, the standard
errors and the critical value are those of the single machine without clusters for multipliers of the same length; and every outcome of the
single machine is reached by some multipliers of the workers. -/
theorem C279_split (p : ℕ) (hp : 0 < p) (rows : List (κ → ℝ)) :
    (∀ G : Gen B, ∃ H : Fin B → List Bool, (∀ b, (H b).length = rows.length) ∧
      ∀ o cellSe cl, inferDdd o G p cellSe rows cl = inferDddOne o H cellSe rows none) ∧
    (∀ H : Fin B → List Bool, (∀ b, (H b).length = rows.length) →
      ∃ G : Gen B, ∀ o cellSe cl, inferDdd o G p cellSe rows cl = inferDddOne o H cellSe rows none) := by
  constructor
  · intro G
    refine ⟨joined G (arraySplit p rows), fun b => ?_, fun o cellSe cl => ?_⟩
    · rw [joined_length, arraySplit_flatten p hp]
    · unfold inferDdd inferDddOne
      rw [distBres_eq G p hp]
      rfl
  · intro H hH
    refine ⟨dealt p H, fun o cellSe cl => ?_⟩
    unfold inferDdd inferDddOne
    rw [distBres_eq _ p hp, joined_dealt p hp H rows hH]
    rfl

/-- **C279.**  The variance, over independent multipliers, of the distributed draws of a cell: the mean square of the influence values over the
number of units, on any number of partitions. -/
theorem C279_variance (p : ℕ) (hp : 0 < p) (rows : List (κ → ℝ)) (hne : rows ≠ []) (j : κ) :
    expect (ι := Fin rows.length) (fun b => (distBres (dealt p fun _ : Fin 1 => List.ofFn b) (arraySplit p rows) rows.length j 0 / √(rows.length : ℝ)) ^ 2) =
      (rows.map fun r => r j ^ 2).sum / (rows.length : ℝ) ^ 2 := by
  rw [← draw_sq]
  congr 1
  funext b
  rw [distBres_eq _ p hp, joined_dealt p hp _ rows fun _ => by simp]
  unfold singleBres
  have h0 : √(rows.length : ℝ) ≠ 0 := by
    refine (Real.sqrt_pos.2 ?_).ne'
    exact_mod_cast List.length_pos_of_ne_nil hne
  rw [mul_div_cancel_left₀ _ h0]

theorem labelSum_const (f : ℤ → ℝ) (c : ℤ) : ∀ ids : List ℤ, labelSum (ids.map f) ids c = (ids.count c : ℝ) * f c
  | [] => by simp [labelSum]
  | i :: ids => by
    have ih := labelSum_const f c ids
    unfold labelSum at ih ⊢
    by_cases h : i = c
    · subst h
      simp only [List.map_cons, List.zip_cons_cons, List.filter_cons, decide_true, if_true, List.sum_cons, ih, List.count_cons_self]
      push_cast
      ring
    · simp only [List.map_cons, List.zip_cons_cons, List.filter_cons, h, decide_false, Bool.false_eq_true, if_false, ih]
      rw [List.count_cons_of_ne (by simpa using h)]

/-- Sum over the units of a function of the label, cluster by cluster. -/
theorem sum_by_label (ids : List ℤ) (f : ℤ → ℝ) : (ids.map f).sum = ((uniqueIds ids).map fun c => (ids.count c : ℝ) * f c).sum := by
  rw [← C41_sums_add_to_total (ids.map f) ids (by simp)]
  congr 1
  unfold clusterSumsPy
  exact List.map_congr_left fun c _ => labelSum_const f c ids

/-- **C279 (violated).**  `ddd(..., cluster=...)` on a cluster of workers: the labels change nothing, so the draws keep the variance for independent
units.  With `m` units per cluster that share their influence value, the variance of the single machine's draws is `m` times as large. -/
theorem C279_cluster_violated (rows : List (κ → ℝ)) (ids : List ℤ) (m : ℕ) (hm : 0 < m) (hlen : ids.length = rows.length)
    (hc : ∀ c ∈ ids, ids.count c = m) (j : κ) (f : ℤ → ℝ) (hf : rows.map (fun r => r j) = ids.map f) :
    (∀ (o : InfOpts) (G : Gen B) (p : ℕ) (cellSe : κ → Option ℝ) (cl : Option (List ℤ)), inferDdd o G p cellSe rows cl = inferDdd o G p cellSe rows none) ∧
    expect (ι := Fin (bootRows rows (some ids)).length) (fun b => drawPy k1 k2 (bootRows rows (some ids)) (List.ofFn b) j ^ 2) =
      m * expect (ι := Fin rows.length) (fun b => drawPy k1 k2 rows (List.ofFn b) j ^ 2) := by
  refine ⟨fun _ _ _ _ _ => rfl, ?_⟩
  have hu : ∀ c ∈ uniqueIds ids, (ids.count c : ℝ) = m := fun c h => by rw [hc c ((mem_uniqueIds ids c).1 h)]
  have hm' : (m : ℝ) ≠ 0 := by exact_mod_cast hm.ne'
  rw [draw_sq, draw_sq]
  have e1 : ((bootRows rows (some ids)).map fun r => r j ^ 2).sum = ((uniqueIds ids).map fun c => f c ^ 2).sum := by
    unfold bootRows clusterRows
    rw [List.map_map]
    congr 1
    refine List.map_congr_left fun c h => ?_
    simp only [Function.comp]
    rw [hf, labelSum_const, hu c h, mul_div_cancel_left₀ _ hm']
  have e2 : (rows.map fun r => r j ^ 2).sum = m * ((uniqueIds ids).map fun c => f c ^ 2).sum := by
    have : (rows.map fun r => r j ^ 2) = ids.map fun c => f c ^ 2 := by
      have h := congrArg (List.map fun x : ℝ => x ^ 2) hf
      rw [List.map_map, List.map_map] at h
      exact h
    rw [this, sum_by_label, ← List.sum_map_mul_left]
    congr 1
    exact List.map_congr_left fun c h => by rw [hu c h]
  have e3 : (rows.length : ℝ) = m * ((bootRows rows (some ids)).length : ℝ) := by
    have h := sum_by_label ids fun _ => 1
    have h' : ((uniqueIds ids).map fun c => (ids.count c : ℝ) * 1) = (uniqueIds ids).map fun _ => (m : ℝ) :=
      List.map_congr_left fun c hc => by rw [hu c hc, mul_one]
    rw [h'] at h
    simp only [List.map_const', List.sum_replicate, nsmul_eq_mul, mul_one] at h
    rw [← hlen, h]
    simp only [bootRows, clusterRows, List.length_map]
    ring
  rw [e1, e2, e3]
  generalize ((bootRows rows (some ids)).length : ℝ) = u
  generalize ((uniqueIds ids).map fun c => f c ^ 2).sum = S
  by_cases hz : u = 0
  · simp [hz]
  · field_simp

/-- Two clusters of two units each, sharing a shock. -/
example : ∀ c ∈ [5, 5, 2, 2], List.count c [(5 : ℤ), 5, 2, 2] = 2 := by decide

example : ([fun _ : Unit => (1 : ℝ), fun _ => 1, fun _ => -1, fun _ => -1]).map (fun r => r ()) =
    [(5 : ℤ), 5, 2, 2].map fun c => if c = 5 then 1 else -1 := by norm_num

theorem attGt_crit_eq (o : InfOpts) (ht : 0 ≤ o.tol) (bres : κ → Fin B → ℝ)
    (hs : ∀ j, o.tol < ∑ b, bres j b ^ 2 → o.tol < iqrSigma (bres j)) : mbootDddCrit o.tol o.alpha bres = mbootCrit o.tol o.alpha bres := by
  unfold mbootDddCrit mbootCrit critWith
  have h : ∀ b, maxT (cleanCols o.tol bres) (fun j => iqrSigma (bres j)) (fun s => decide (s ≤ o.tol)) bres b =
      maxT (cleanCols o.tol bres) (fun j => iqrSigma (bres j)) (fun s => decide (s = 0)) bres b := by
    intro b
    unfold maxT
    rw [if_neg, if_neg]
    · rintro ⟨j, hj, hb⟩
      have := hs j (nondegenerate_iff.1 (mem_cleanCols.1 hj))
      simp only [decide_eq_true_eq] at hb
      linarith
    · rintro ⟨j, hj, hb⟩
      have := hs j (nondegenerate_iff.1 (mem_cleanCols.1 hj))
      simp only [decide_eq_true_eq] at hb
      linarith
  simp only [h]

/-- **C279.**  Distributed `att_gt`, with or without clusters, on any number of partitions: for multipliers of the same length the standard errors
are those of the single machine, and so is the critical value, as long as every cell has an analytical standard error and the interquartile spread
of draws that vary at all is above the tolerance. -/
theorem C279_att_gt (p : ℕ) (hp : 0 < p) (rows : List (κ → ℝ)) (cl : Option (List ℤ)) (G : Gen B) :
    ∃ H : Fin B → List Bool, (∀ b, (H b).length = (bootRows rows cl).length) ∧
      ∀ o : InfOpts, 0 ≤ o.tol → (∀ j, o.tol < analyticSe rows j) →
        (∀ j, o.tol < ∑ b, singleBres H (bootRows rows cl) j b ^ 2 → o.tol < iqrSigma (singleBres H (bootRows rows cl) j)) →
        (inferAttGt o G p rows cl).1 = (inferAttGtOne o H rows cl).1 ∧
        ∀ cv, (inferAttGtOne o H rows cl).2 = some cv → (inferAttGt o G p rows cl).2 = cv := by
  refine ⟨joined G (arraySplit p (bootRows rows cl)), fun b => ?_, fun o ht ha hs => ?_⟩
  · rw [joined_length, arraySplit_flatten p hp]
  · unfold inferAttGt inferAttGtOne inferReport
    dsimp only
    rw [distBres_eq G p hp]
    generalize singleBres (joined G (arraySplit p (bootRows rows cl))) (bootRows rows cl) = bres at *
    constructor
    · funext j
      have h1 : reportSe o.tol (some (analyticSe rows j)) = some (analyticSe rows j) := by
        simp [reportSe, not_le.2 (ha j)]
      cases hb : o.boot
      · simp [hb, dddMpSe]
      · simp only [hb, if_true, h1, dddMpSe]
        congr 1
        unfold mbootDddSe mbootSe
        by_cases hn : nondegenerate o.tol (bres j) = true
        · rw [if_pos hn, if_pos hn, if_neg (not_le.2 (hs j (nondegenerate_iff.1 hn)))]
        · rw [if_neg hn, if_neg hn]
    · intro cv h
      rw [attGt_crit_eq o ht bres hs]
      unfold critAttGt at h
      unfold critDddMp
      split_ifs at h ⊢
      · rw [h]; rfl
      · exact Option.some.inj h

/-- **C279 (violated).**  Draws of one cell that vary but have equal quartiles: the single machine reports no critical value for the bands, the
workers silently report the pointwise normal quantile. -/
theorem C279_att_gt_band_violated (p : ℕ) (hp : 0 < p) (rows : List (κ → ℝ)) (cl : Option (List ℤ)) (H : Fin B → List Bool)
    (hH : ∀ b, (H b).length = (bootRows rows cl).length) (o : InfOpts) (ht : 0 ≤ o.tol) (hb : o.boot = true) (hc : o.cband = true) (j : κ)
    (hv : o.tol < ∑ b, singleBres H (bootRows rows cl) j b ^ 2) (hq : iqrSigma (singleBres H (bootRows rows cl) j) = 0) :
    (inferAttGtOne o H rows cl).2 = none ∧ ∃ G : Gen B, (inferAttGt o G p rows cl).2 = o.z := by
  have hq' : percentile (3 / 4) (List.ofFn (singleBres H (bootRows rows cl) j)) = percentile (1 / 4) (List.ofFn (singleBres H (bootRows rows cl) j)) := by
    unfold iqrSigma at hq
    rw [div_eq_zero_iff, sub_eq_zero] at hq
    exact hq.resolve_right normIqr_pos.ne'
  constructor
  · unfold inferAttGtOne
    rw [hb, hc]
    exact (C133_one_cell_spoils_violated o.tol o.alpha o.z _ j hv hq').1
  · refine ⟨dealt p H, ?_⟩
    unfold inferAttGt inferReport
    dsimp only
    rw [distBres_eq _ p hp, joined_dealt p hp H _ hH, hb, hc]
    have hn : mbootDddCrit o.tol o.alpha (singleBres H (bootRows rows cl)) = none := by
      rcases Nat.eq_zero_or_pos B with h | hB
      · cases hx : mbootDddCrit o.tol o.alpha (singleBres H (bootRows rows cl)) with
        | none => rfl
        | some c => have := (critWith_some hx).1; omega
      · refine (C133_missing_iff_ddd o.tol o.alpha _ hB).mpr (Or.inr ⟨j, hv, ?_⟩)
        rw [hq', sub_self]
        positivity
    show critDddMp true true o.z (mbootDddCrit o.tol o.alpha (singleBres H (bootRows rows cl))) = o.z
    rw [hn]
    rfl

end Props

/-! ## Examples -/

/-- Seven units in three pieces, two units in three pieces. -/
example : arraySplit 3 [1, 2, 3, 4, 5, 6, 7] = [[1, 2, 3], [4, 5], [6, 7]] ∧ arraySplit 3 [1, 2] = [[1], [2]] := by decide

/-- Seven draws for one unit, six alike. -/
def exBits (b : Fin 7) : List Bool := [decide ((b : ℕ) < 6)]

theorem exBres : singleBres exBits [fun _ : Unit => (1 : ℝ)] () = ![k1, k1, k1, k1, k1, k1, k2] := by
  funext b
  have hb : ∀ b : Fin 7, singleBres exBits [fun _ : Unit => (1 : ℝ)] () b = if (b : ℕ) < 6 then k1 else k2 := by
    intro b
    simp [singleBres, exBits, drawPy]
  rw [hb]
  fin_cases b <;> simp

/-- Four draws for one unit, two of each kind. -/
def exBits4 (b : Fin 4) : List Bool := [decide ((b : ℕ) < 2)]

/-- The hypotheses of `C279_att_gt` are met: the analytical standard error is one and the spread is above the tolerance. -/
example : (1e-7 : ℝ) < analyticSe [fun _ : Unit => (1 : ℝ)] () ∧
    (1e-7 : ℝ) < iqrSigma (singleBres exBits4 (bootRows [fun _ : Unit => (1 : ℝ)] none) ()) := by
  constructor
  · norm_num [analyticSe]
  · have h : singleBres exBits4 (bootRows [fun _ : Unit => (1 : ℝ)] none) () = ![k1, k1, k2, k2] := by
      show singleBres exBits4 [fun _ : Unit => (1 : ℝ)] () = ![k1, k1, k2, k2]
      funext b
      have hb : singleBres exBits4 [fun _ : Unit => (1 : ℝ)] () b = if (b : ℕ) < 2 then k1 else k2 := by
        simp [singleBres, exBits4, drawPy]
      rw [hb]
      fin_cases b <;> simp
    rw [h, iqrSigma_two_two k1 k2 k1_lt_k2.le, lt_div_iff₀ normIqr_pos]
    have h1 := k_bounds.1
    have h2 := k_bounds.2.2.2
    unfold normIqr
    norm_num
    linarith

/-- The hypotheses of the last theorem are met. -/
example : (1e-7 : ℝ) < ∑ b, singleBres exBits (bootRows [fun _ : Unit => (1 : ℝ)] none) () b ^ 2 ∧
    iqrSigma (singleBres exBits (bootRows [fun _ : Unit => (1 : ℝ)] none) ()) = 0 := by
  show (1e-7 : ℝ) < ∑ b, singleBres exBits [fun _ : Unit => (1 : ℝ)] () b ^ 2 ∧ iqrSigma (singleBres exBits [fun _ : Unit => (1 : ℝ)] ()) = 0
  rw [exBres]
  refine ⟨?_, iqrSigma_six_one k1 k2⟩
  rw [Fin.sum_univ_seven]
  have h5 : (2.2 : ℝ) ≤ √5 := k_bounds.2.2.2
  have hk : (1 : ℝ) ≤ k2 := by unfold k2; linarith
  simp only [Matrix.cons_val]
  nlinarith [sq_nonneg k1, hk]

end Verif.Dist
