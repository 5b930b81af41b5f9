import Verif.Cont.Frame
import Verif.Cont.Subset
import Verif.Cont.More
import Verif.Cont.Cell
import Mathlib.Tactic.FieldSimp

set_option linter.unusedSectionVars false
set_option linter.unusedSimpArgs false

/-!
# Distributed `cont_did`: C197-C199

`moderndid/distributed/_didcont_preprocess.py`, `moderndid/distributed/_didcont_partition.py`, `moderndid/dask/_didcont_mp.py`
(`moderndid/spark/_didcont_mp.py` collects the same pieces).  Rows carry a flag: `false` for a row with a missing value in a
needed column.
-/

namespace Verif.Cont

open Verif.Panel Verif.Prep

variable {ι K : Type*}

/-- A row of the input and whether all its needed columns are observed. -/
abbrev InRow (ι K : Type*) := Rec ι K × Bool

/-- The rows left by `drop_nulls`, `_didcont_preprocess.py:99`, `transformers.py:78-79`. -/
def complete (df : List (InRow ι K)) : List (Rec ι K) := (df.filter fun r => r.2).map Prod.fst

/-- `partition_preprocess`, `_didcont_preprocess.py:54-116` (weights left out). -/
def partPreprocess [Zero K] (last : ℤ) (part : List (InRow ι K)) : List (Rec ι K) :=
  (complete part).map fun r => zeroNever (setCohort r (encodeCohort last (cohort r)))

/-- `max_time = data[tname].max()`, `_didcont_mp.py:185`: over all rows, also those dropped later. -/
def lastPeriod (parts : List (List (InRow ι K))) : Option ℤ := (parts.flatten.map fun r => r.1.t).max?

/-- The collected frame, `_didcont_mp.py:198-208`. -/
def distFrame [Zero K] (parts : List (List (InRow ι K))) : List (Rec ι K) :=
  match lastPeriod parts with
  | none => []
  | some last => parts.flatMap (partPreprocess last)

/-- `dask_cont_did_mp`, `_didcont_mp.py:245-249`: early cohorts, renumbering, balancing, sorting; no check of the doses. -/
def distPipeline [LinearOrder ι] [Zero K] (req anticip : ℤ) (parts : List (List (InRow ι K))) : Option (List (Rec ι K)) :=
  (balance (recode (earlyGroups req anticip (distFrame parts)))).map sortTGI

/-! ### Inferring the cohorts -/

/-- `partition_infer_group` for one unit, `_didcont_preprocess.py:41-51`: first period with a positive dose, else never. -/
def partCohort [DecidableEq ι] [Zero K] [LinearOrder K] (part : List (Rec ι K)) (u : ι) : WithTop ℤ :=
  ((part.filter fun r => decide (r.id = u) && decide (0 < dose r)).map fun r => (r.t : WithTop ℤ)).foldr min ⊤

/-- The minimum over the partitions in which the unit occurs, `_didcont_mp.py:176-179`; a partition without the unit has no entry. -/
def distCohort [DecidableEq ι] [Zero K] [LinearOrder K] (parts : List (List (Rec ι K))) (u : ι) : WithTop ℤ :=
  ((parts.filter fun p => decide (u ∈ p.map Row.id)).map fun p => partCohort p u).foldr min ⊤

/-- `get_group` for one unit, `core/preprocess/utils.py:124-137`: the period of the first row, in order of the period, with a positive
dose; 0 if there is none. -/
def localCohort [DecidableEq ι] [Zero K] [LinearOrder K] (df : List (Rec ι K)) (u : ι) : WithTop ℤ :=
  match ((df.filter fun r => decide (r.id = u)).insertionSort fun a b => a.t ≤ b.t).find? fun r => decide (0 < dose r) with
  | none => 0
  | some r => (r.t : WithTop ℤ)

/-! ### Running the cells -/

/-- `client.submit(..., key=f"pte_cell_{g}_{tp}")`, `_didcont_mp.py:430-441`: a task whose key the scheduler still holds is not run
again; `held` is what the scheduler holds. -/
def submitCell {V : Type*} (held : ℤ × ℤ → Option V) (run : ℤ × ℤ → V) (c : ℤ × ℤ) : V := (held c).getD (run c)

/-- `cell_results`, `_didcont_mp.py:443-447`: filled in the order in which the tasks finish. -/
def collect {V : Type*} (finished : List ((ℤ × ℤ) × V)) (c : ℤ × ℤ) : Option V :=
  (finished.foldl (fun (acc : ℤ × ℤ → Option V) kv k => if k = kv.1 then some kv.2 else acc k) fun _ => none) c

/-- The results in the order of the cells, `_didcont_mp.py:453-477`. -/
def assemble {V : Type*} (cells : List (ℤ × ℤ)) (finished : List ((ℤ × ℤ) × V)) : List (Option V) := cells.map (collect finished)

/-- `all_ids`, `_didcont_partition.py:76`: sorted. -/
def sortedIds [LinearOrder ι] (df : List (Rec ι K)) : List ι := (df.map Row.id).dedup.insertionSort (· ≤ ·)

/-! ### Event study -/

/-- `pte_attgt` on a worker, `_didcont_partition.py:142-150`: `d_outcome` is not passed on, so the outcome is the level in the evaluated
period, `estimators.py:142`. -/
def distEventLevel [Fintype ι] [Field K] [LinearOrder K] (w D yPost _yPre : ι → K) : K := eventLevel w D yPost

/-- `pte_attgt` on a single machine, with `d_outcome=True`, `cont_did.py:515-517`, `estimators.py:142`. -/
def localEventLevel [Fintype ι] [Field K] [LinearOrder K] (w D yPost yPre : ι → K) : K := eventLevel w D fun i => yPost i - yPre i

/-! ## C197: the panel -/

lemma zeroNever_keys [Zero K] (r : Rec ι K) : (zeroNever r).id = r.id ∧ (zeroNever r).t = r.t ∧ cohort (zeroNever r) = cohort r := by
  unfold zeroNever
  split_ifs <;> exact ⟨rfl, rfl, rfl⟩

lemma periodsOf_perm [LinearOrder ι] {df df' : List (Rec ι K)} (h : df.Perm df') : periodsOf df = periodsOf df' := by
  have hp : (periodsOf df).Perm (periodsOf df') := by
    rw [List.perm_ext_iff_of_nodup ((periodsOf_pairwise df).imp fun h => ne_of_lt h)
      ((periodsOf_pairwise df').imp fun h => ne_of_lt h)]
    intro t
    rw [mem_periodsOf, mem_periodsOf]
    unfold IsPeriod
    exact ⟨fun ⟨r, hr, e⟩ => ⟨r, h.mem_iff.1 hr, e⟩, fun ⟨r, hr, e⟩ => ⟨r, h.mem_iff.2 hr, e⟩⟩
  exact hp.eq_of_pairwise (fun a b _ _ h1 h2 => absurd h1 (not_lt.2 h2.le)) (periodsOf_pairwise df) (periodsOf_pairwise df')

lemma earlyGroups_perm [LinearOrder ι] {req a : ℤ} {df df' : List (Rec ι K)} (h : df.Perm df') : (earlyGroups req a df).Perm (earlyGroups req a df') := by
  unfold earlyGroups
  rw [periodsOf_perm h]
  split
  · exact h
  · exact h.filter _

lemma periodsOf_map {f : Rec ι K → Rec ι K} (hf : ∀ r, (f r).t = r.t) (df : List (Rec ι K)) : periodsOf (df.map f) = periodsOf df := by
  unfold periodsOf
  rw [List.map_map]
  have : (Row.t ∘ f : Rec ι K → ℤ) = Row.t := funext hf
  rw [this]

lemma earlyGroups_zeroNever [Zero K] (req a : ℤ) (df : List (Rec ι K)) :
    earlyGroups req a (df.map zeroNever) = (earlyGroups req a df).map zeroNever := by
  unfold earlyGroups
  rw [periodsOf_map fun r => (zeroNever_keys r).2.1]
  split
  · rfl
  · rw [List.filter_map]
    congr 1
    apply List.filter_congr
    intro r _
    simp only [Function.comp_apply, lateEnough, (zeroNever_keys r).2.2]

lemma balance_sort_perm [LinearOrder ι] {df df' : List (Rec ι K)} (h : df.Perm df') (hn : NoDuplicates df) :
    (balance df).map sortTGI = (balance df').map sortTGI := by
  have hb := makeBalanced_perm h
  have hnd : NoDuplicates (makeBalanced df) := by rw [makeBalanced_eq_filter]; exact hn.filter _
  unfold balance
  simp only [List.isEmpty_iff]
  by_cases he : makeBalanced df = []
  · have he' := he
    rw [he] at hb
    rw [if_pos he, if_pos hb.symm.eq_nil]
  · rw [if_neg he, if_neg]
    · simp only [Option.map_some, Option.some.injEq]
      exact sortTGI_eq_of_perm hb hnd
    · intro hc; rw [hc] at hb; exact he hb.eq_nil

/-- The collected frame has the rows of the encoded single-machine frame, if the last period is the same with and without the
incomplete rows. -/
theorem distFrame_perm [Zero K] (df : List (InRow ι K)) (parts : List (List (InRow ι K))) (hp : parts.flatten.Perm df)
    (hlast : (df.map fun r => r.1.t).max? = ((complete df).map Row.t).max?) :
    (distFrame parts).Perm ((encode (complete df)).map zeroNever) := by
  have hl : lastPeriod parts = ((complete df).map Row.t).max? := by
    rw [← hlast]
    unfold lastPeriod
    have h1 := hp.map fun r => r.1.t
    cases h2 : (df.map fun r => r.1.t).max? with
    | none =>
      rw [List.max?_eq_none_iff] at h2
      rw [h2] at h1
      rw [h1.eq_nil]; rfl
    | some m =>
      rw [max?_some_iff] at h2 ⊢
      exact ⟨h1.mem_iff.2 h2.1, fun x hx => h2.2 x (h1.mem_iff.1 hx)⟩
  unfold distFrame encode
  rw [hl]
  cases h2 : ((complete df).map Row.t).max? with
  | none =>
    have : complete df = [] := by rw [List.max?_eq_none_iff] at h2; simpa using h2
    rw [this]; exact List.Perm.refl _
  | some last =>
    simp only
    have h3 : parts.flatMap (partPreprocess last) =
        (complete parts.flatten).map fun r => zeroNever (setCohort r (encodeCohort last (cohort r))) := by
      clear hp hl
      induction parts with
      | nil => rfl
      | cons q parts ih =>
        rw [List.flatMap_cons, ih]
        unfold partPreprocess complete
        rw [List.flatten_cons, List.filter_append, List.map_append, List.map_append]
    rw [h3, List.map_map]
    unfold complete
    exact (((hp.filter _).map _).map _)

/-- C197.  For every placement of the rows in partitions the distributed run prepares exactly the panel of the single-machine run,
provided that periods are numbered 1 to T, dropping early cohorts leaves every period observed, the last period has a complete row,
and no treated unit has a zero dose after its treatment. -/
theorem C197_agree [LinearOrder ι] [Zero K] [DecidableEq K] (req a : ℤ) (T : ℕ) (df : List (InRow ι K))
    (parts : List (List (InRow ι K))) (hp : parts.flatten.Perm df) (hn : NoDuplicates (complete df))
    (hlast : (df.map fun r => r.1.t).max? = ((complete df).map Row.t).max?)
    (h1 : periodsOf (complete df) = (List.range T).map fun i : ℕ => (i : ℤ) + 1)
    (h2 : periodsOf (earlyGroups req a (encode (complete df))) = periodsOf (complete df))
    (h3 : ∀ r ∈ earlyGroups req a (encode (complete df)), invalidDose (zeroNever r) = false) :
    distPipeline req a parts = contPipeline req a (complete df) := by
  have hf := distFrame_perm df parts hp hlast
  have hE : recode (encode (complete df)) = encode (complete df) := C70_identity T _ (by rw [periods_encode, h1])
  have hV : validateDose (earlyGroups req a (encode (complete df))) = (earlyGroups req a (encode (complete df))).map zeroNever := by
    unfold validateDose
    rw [List.filter_eq_self]
    intro r hr
    obtain ⟨r0, h0, rfl⟩ := List.mem_map.1 hr
    rw [h3 r0 h0]; rfl
  have hg := earlyGroups_perm (req := req) (a := a) hf
  rw [earlyGroups_zeroNever] at hg
  have hR : recode (earlyGroups req a (distFrame parts)) = earlyGroups req a (distFrame parts) := by
    apply C70_identity T
    rw [periodsOf_perm hg, periodsOf_map fun r => (zeroNever_keys r).2.1, h2, h1]
  unfold distPipeline contPipeline
  rw [hE, hV, hR]
  refine (balance_sort_perm hg.symm ?_).symm
  apply noDup_map (f := zeroNever) fun r => ⟨(zeroNever_keys r).1, (zeroNever_keys r).2.1⟩
  have hnd := noDup_encode hn
  unfold earlyGroups
  split
  · exact hnd
  · exact hnd.filter _

/-- The minimum of a list. -/
lemma le_foldr_min (l : List (WithTop ℤ)) (x : WithTop ℤ) : x ≤ l.foldr min ⊤ ↔ ∀ y ∈ l, x ≤ y := by
  induction l with
  | nil => simp
  | cons y l ih => simp [ih]

/-- C197.  The cohort inferred from the doses is the unit's first period with a positive dose, over all partitions. -/
theorem C197_infer [DecidableEq ι] [Zero K] [LinearOrder K] (parts : List (List (Rec ι K))) (u : ι) (x : WithTop ℤ) :
    x ≤ distCohort parts u ↔ ∀ r ∈ parts.flatten, r.id = u → 0 < dose r → x ≤ (r.t : WithTop ℤ) := by
  unfold distCohort
  rw [le_foldr_min]
  simp only [List.mem_map, List.mem_filter, List.mem_flatten, decide_eq_true_eq]
  constructor
  · rintro h r ⟨p, hp, hr⟩ hid hd
    have := h (partCohort p u) ⟨p, ⟨hp, r, hr, hid⟩, rfl⟩
    unfold partCohort at this
    rw [le_foldr_min] at this
    apply this
    simp only [List.mem_map, List.mem_filter, Bool.and_eq_true, decide_eq_true_eq]
    exact ⟨r, ⟨hr, hid, hd⟩, rfl⟩
  · rintro h y ⟨p, ⟨hp, _⟩, rfl⟩
    unfold partCohort
    rw [le_foldr_min]
    intro z hz
    simp only [List.mem_map, List.mem_filter, Bool.and_eq_true, decide_eq_true_eq] at hz
    obtain ⟨r, ⟨hr, hid, hd⟩, rfl⟩ := hz
    exact h r ⟨p, hp, hr⟩ hid hd

/-- C197.  After encoding, the inferred cohorts of the distributed and of the single-machine run are the same. -/
theorem C197_infer_agree [DecidableEq ι] [Zero K] [LinearOrder K] (df : List (Rec ι K)) (parts : List (List (Rec ι K)))
    (hp : parts.flatten.Perm df) (u : ι) (last : ℤ) :
    encodeCohort last (distCohort parts u) = encodeCohort last (localCohort df u) := by
  have key : distCohort parts u = match ((df.filter fun r => decide (r.id = u)).insertionSort fun a b => a.t ≤ b.t).find?
      fun r => decide (0 < dose r) with
    | none => ⊤
    | some r => (r.t : WithTop ℤ) := by
    apply eq_of_forall_le_iff
    intro x
    rw [C197_infer]
    have hm : ∀ r, r ∈ (df.filter fun r => decide (r.id = u)).insertionSort (fun a b => a.t ≤ b.t) ↔ r ∈ parts.flatten ∧ r.id = u := by
      intro r
      rw [List.mem_insertionSort, List.mem_filter, decide_eq_true_eq, hp.mem_iff]
    have hs : ((df.filter fun r => decide (r.id = u)).insertionSort fun a b => a.t ≤ b.t).Pairwise fun a b => a.t ≤ b.t := by
      have : IsTrans (Rec ι K) (fun a b => a.t ≤ b.t) := ⟨fun _ _ _ h1 h2 => le_trans h1 h2⟩
      have : Std.Total (fun a b : Rec ι K => a.t ≤ b.t) := ⟨fun a b => le_total a.t b.t⟩
      exact List.pairwise_insertionSort _ _
    generalize ((df.filter fun r => decide (r.id = u)).insertionSort fun a b => a.t ≤ b.t) = L at hm hs
    cases hf : L.find? fun r => decide (0 < dose r) with
    | none =>
      simp only [le_top, iff_true]
      intro r hr hid hd
      have := List.find?_eq_none.1 hf r ((hm r).2 ⟨hr, hid⟩)
      simp [hd] at this
    | some r0 =>
      simp only
      constructor
      · intro h
        have hr0 := (hm r0).1 (List.mem_of_find?_eq_some hf)
        have hd0 := List.find?_some hf
        exact h r0 hr0.1 hr0.2 (by simpa using hd0)
      · intro h r hr hid hd
        refine le_trans h ?_
        rw [WithTop.coe_le_coe]
        have hr' := (hm r).2 ⟨hr, hid⟩
        obtain ⟨_, as, bs, e, hno⟩ := List.find?_eq_some_iff_append.1 hf
        rw [e] at hs hr'
        rcases List.mem_append.1 hr' with h' | h'
        · have := hno r h'
          simp [hd] at this
        · rcases List.mem_cons.1 h' with rfl | h'
          · exact le_refl _
          · have := (List.pairwise_append.1 hs).2.1
            exact (List.pairwise_cons.1 this).1 r h'
  rw [key]
  unfold localCohort
  cases ((df.filter fun r => decide (r.id = u)).insertionSort fun a b => a.t ≤ b.t).find? fun r => decide (0 < dose r) with
  | none => simp [encodeCohort]
  | some r => rfl

/-- The single-machine run never uses a treated row without a dose. -/
theorem C197_local_dose [LinearOrder ι] [Zero K] [DecidableEq K] (req a : ℤ) (df out : List (Rec ι K))
    (h : contPipeline req a df = some out) (r : Rec ι K) (hr : r ∈ out) (g : ℤ) (hg : cohort r = (g : WithTop ℤ)) (ht : g ≤ r.t) :
    dose r ≠ 0 := by
  unfold contPipeline at h
  obtain ⟨b, hb, rfl⟩ := Option.map_eq_some_iff.1 h
  have hr' : r ∈ b := (List.perm_insertionSort leTGI b).mem_iff.1 hr
  have := mem_balance hb hr'
  unfold validateDose at this
  have h2 := (List.mem_filter.1 this).2
  intro h0
  have : invalidDose r = true := by
    unfold invalidDose
    rw [hg, h0]
    simp [ht]
  rw [this] at h2
  cases h2

/-- A treated row without a dose is a comparison row of its own cohort's cell. -/
theorem C197_zero_dose_comparison [Zero K] (u : Bool) (cg : ControlGroup) (a g : ℤ) (df : List (Rec ι K)) (r : Rec ι K) (hr : r ∈ df)
    (hg : cohort r = (g : WithTop ℤ)) (h0 : dose r = 0) :
    ∃ q ∈ subset u cg a g r.t df, q.id = r.id ∧ q.t = r.t ∧ cohort q = (g : WithTop ℤ) ∧ dose q = 0 := by
  refine ⟨maskDose g r, ?_, rfl, rfl, hg, ?_⟩
  · unfold subset
    refine List.mem_map.2 ⟨r, List.mem_filter.2 ⟨List.mem_filter.2 ⟨hr, ?_⟩, by simp⟩, rfl⟩
    unfold unitIn
    cases cg <;> simp [hg]
  · unfold maskDose
    rw [if_pos hg]
    exact h0

/-- Two periods; unit 1 belongs to cohort 2 but takes no dose. -/
def zeroDosePanel : List (InRow ℕ ℚ) :=
  [(⟨1, 1, ((2 : ℤ), (0, 0))⟩, true), (⟨1, 2, ((2 : ℤ), (8, 0))⟩, true), (⟨2, 1, ((2 : ℤ), (0, 0))⟩, true),
    (⟨2, 2, ((2 : ℤ), (5, 1))⟩, true), (⟨3, 1, ((0 : ℤ), (0, 0))⟩, true), (⟨3, 2, ((0 : ℤ), (1, 0))⟩, true)]

/-- C197 (violated).  A cohort member with dose zero is dropped by the single-machine run, but the distributed run keeps it and uses it
as a comparison unit for its own cohort. -/
theorem C197_zero_dose_violated :
    (∃ out, contPipeline 1 0 (complete zeroDosePanel) = some out ∧ out.map Row.id = [2, 3, 2, 3]) ∧
    ∃ out, distPipeline 1 0 [zeroDosePanel] = some out ∧ out.map Row.id = [1, 2, 3, 1, 2, 3] ∧
      ((cellData false .notYetTreated 0 2 2 out).filter fun e => decide (dose e.1 = 0)).map (fun e => (e.1.id, e.2)) =
        [(1, some 8), (3, some 1)] := by
  refine ⟨⟨_, rfl, ?_⟩, ⟨_, rfl, ?_, ?_⟩⟩ <;> decide +kernel

/-- Three periods; no outcome is observed in the last one. -/
def missingLast : List (InRow ℕ ℚ) :=
  [(⟨1, 1, ((3 : ℤ), (0, 1))⟩, true), (⟨1, 2, ((3 : ℤ), (8, 1))⟩, true), (⟨1, 3, ((3 : ℤ), (0, 1))⟩, false),
    (⟨2, 1, ((2 : ℤ), (0, 1))⟩, true), (⟨2, 2, ((2 : ℤ), (5, 1))⟩, true), (⟨2, 3, ((2 : ℤ), (0, 1))⟩, false)]

/-- C197 (violated).  If the last period has only incomplete rows, units treated in it are never treated for the single-machine run and
a treated cohort for the distributed one. -/
theorem C197_last_period_violated :
    (∃ out, contPipeline 1 0 (complete missingLast) = some out ∧ out.map (fun r => (r.id, cohort r)) =
      [(2, ((2 : ℤ) : WithTop ℤ)), (1, ⊤), (2, ((2 : ℤ) : WithTop ℤ)), (1, ⊤)]) ∧
    ∃ out, distPipeline 1 0 [missingLast] = some out ∧ out.map (fun r => (r.id, cohort r)) =
      [(2, ((2 : ℤ) : WithTop ℤ)), (1, ((3 : ℤ) : WithTop ℤ)), (2, ((2 : ℤ) : WithTop ℤ)), (1, ((3 : ℤ) : WithTop ℤ))] := by
  refine ⟨⟨_, rfl, ?_⟩, ⟨_, rfl, ?_⟩⟩ <;> decide +kernel

/-- A panel meeting the hypotheses of C197, in two partitions, one row with a missing outcome. -/
def exDist : List (InRow ℕ ℚ) :=
  [(⟨1, 1, ((2 : ℤ), (0, 0))⟩, true), (⟨1, 2, ((2 : ℤ), (8, 3))⟩, true), (⟨3, 2, ((0 : ℤ), (1, 0))⟩, true),
    (⟨2, 1, ((2 : ℤ), (0, 0))⟩, true), (⟨2, 2, ((2 : ℤ), (5, 1))⟩, true), (⟨3, 1, ((0 : ℤ), (0, 0))⟩, true),
    (⟨4, 1, ((0 : ℤ), (0, 0))⟩, true), (⟨4, 2, ((0 : ℤ), (0, 0))⟩, false)]

example : distPipeline 1 0 [exDist.drop 3, [], exDist.take 3] = contPipeline 1 0 (complete exDist) ∧
    (contPipeline 1 0 (complete exDist)).map (fun out => out.map Row.id) = some [1, 2, 3, 1, 2, 3] := by
  refine ⟨C197_agree 1 0 2 exDist _ ?_ ?_ ?_ ?_ ?_ ?_, by decide +kernel⟩
  · show (exDist.drop 3 ++ ([] ++ (exDist.take 3 ++ []))).Perm exDist
    simpa using (List.perm_append_comm.trans (List.Perm.of_eq (List.take_append_drop 3 exDist)))
  · unfold NoDuplicates; decide +kernel
  · decide +kernel
  · decide +kernel
  · decide +kernel
  · decide +kernel

example : distCohort [[(⟨1, 5, ((0 : ℤ), (0, 2))⟩ : Rec ℕ ℚ), ⟨1, 3, ((0 : ℤ), (0, 0))⟩], [⟨1, 4, ((0 : ℤ), (0, 1))⟩]] 1 =
    ((4 : ℤ) : WithTop ℤ) := by decide +kernel

/-! ## C198: scheduling -/

lemma collect_append {V : Type*} (l : List ((ℤ × ℤ) × V)) (kv : (ℤ × ℤ) × V) (c : ℤ × ℤ) :
    collect (l ++ [kv]) c = if c = kv.1 then some kv.2 else collect l c := by
  unfold collect
  rw [List.foldl_append]; rfl

lemma collect_eq {V : Type*} (f : ℤ × ℤ → V) (l : List ((ℤ × ℤ) × V)) (hl : ∀ kv ∈ l, kv.2 = f kv.1) (c : ℤ × ℤ) :
    collect l c = if c ∈ l.map Prod.fst then some (f c) else none := by
  induction l using List.reverseRecOn with
  | nil => rfl
  | append_singleton l kv ih =>
    rw [collect_append, ih fun x hx => hl x (List.mem_append_left _ hx)]
    have hk := hl kv (by simp)
    by_cases e : c = kv.1
    · subst e
      rw [if_pos rfl, if_pos (by simp), hk]
    · rw [if_neg e]
      have : c ∈ (l ++ [kv]).map Prod.fst ↔ c ∈ l.map Prod.fst := by simp [e]
      rw [if_congr this rfl rfl]

/-- C198.  In whatever order the tasks finish, every cell gets its own result. -/
theorem C198_any_order {V : Type*} (run : ℤ × ℤ → V) (cells : List (ℤ × ℤ)) (finished : List ((ℤ × ℤ) × V))
    (hf : finished.Perm (cells.map fun c => (c, submitCell (fun _ => none) run c))) :
    assemble cells finished = cells.map fun c => some (run c) := by
  have h1 : ∀ kv ∈ finished, kv.2 = run kv.1 := by
    intro kv hkv
    obtain ⟨c, _, rfl⟩ := List.mem_map.1 (hf.mem_iff.1 hkv)
    rfl
  unfold assemble
  apply List.map_congr_left
  intro c hc
  rw [collect_eq run finished h1, if_pos]
  refine List.mem_map.2 ⟨(c, run c), hf.mem_iff.2 (List.mem_map.2 ⟨c, hc, rfl⟩), rfl⟩

example : assemble [(2, 2), (3, 3)] [((3, 3), 'b'), ((2, 2), 'a')] = [some 'a', some 'b'] := by decide

/-- C198 (violated).  The task names contain only cohort and period: if the scheduler still holds the results of an earlier run, another
data set gets those results for all cells the runs share. -/
theorem C198_stale_violated {V : Type*} (earlier run : ℤ × ℤ → V) (old cells : List (ℤ × ℤ)) (finished : List ((ℤ × ℤ) × V))
    (hf : finished.Perm (cells.map fun c => (c, submitCell (fun k => if k ∈ old then some (earlier k) else none) run c))) (k : ℕ)
    (c : ℤ × ℤ) (hc : cells[k]? = some c) (ho : c ∈ old) : (assemble cells finished)[k]? = some (some (earlier c)) := by
  obtain ⟨f, hfdef⟩ : ∃ f, f = submitCell (fun k => if k ∈ old then some (earlier k) else none) run := ⟨_, rfl⟩
  rw [← hfdef] at hf
  have h1 : ∀ kv ∈ finished, kv.2 = f kv.1 := by
    intro kv hkv
    obtain ⟨c, _, rfl⟩ := List.mem_map.1 (hf.mem_iff.1 hkv)
    rfl
  unfold assemble
  rw [List.getElem?_map, hc, Option.map_some, collect_eq f finished h1, if_pos]
  · rw [hfdef]; simp [submitCell, ho]
  · exact List.mem_map.2 ⟨(c, f c), hf.mem_iff.2 (List.mem_map.2 ⟨c, List.mem_of_getElem? hc, rfl⟩), rfl⟩

example : assemble [(2, 2), (3, 3)] [((3, 3), submitCell (fun k => if k ∈ [((3 : ℤ), (3 : ℤ))] then some 'x' else none) (fun _ => 'n')
    (3, 3)), ((2, 2), 'n')] = [some 'n', some 'x'] := by decide

/-- C198.  The list of units is sorted, so each unit's row of the influence matrix holds that unit's value in every dose cell, on every
scheduler and for every order of the rows. -/
theorem C198_placement [LinearOrder ι] [Zero K] (df : List (Rec ι K)) (sub : List (ι × K))
    (hsub : (sub.map Prod.fst).Pairwise (· < ·)) (hin : ∀ u ∈ sub.map Prod.fst, ∃ r ∈ df, r.id = u) :
    (placeInfluence (sortedIds df) sub).length = (sortedIds df).length ∧
    ∀ e ∈ (sortedIds df).zip (placeInfluence (sortedIds df) sub), e ∈ sub ∨ (e.1 ∉ sub.map Prod.fst ∧ e.2 = 0) := by
  apply C106_sorted _ _ _ hsub
  · intro u hu
    obtain ⟨r, hr, rfl⟩ := hin u hu
    unfold sortedIds
    rw [List.mem_insertionSort, List.mem_dedup]
    exact List.mem_map.2 ⟨r, hr, rfl⟩
  · unfold sortedIds
    have h1 := List.pairwise_insertionSort (· ≤ ·) (df.map Row.id).dedup
    have h2 : ((df.map Row.id).dedup.insertionSort (· ≤ ·)).Nodup :=
      (List.perm_insertionSort (· ≤ ·) _).nodup_iff.2 (List.nodup_dedup _)
    exact (h1.and h2).imp fun ⟨h1, h2⟩ => lt_of_le_of_ne h1 h2

example : placeInfluence (sortedIds ([⟨7, 1, (⊤, (0, 0))⟩, ⟨2, 1, (⊤, (0, 0))⟩, ⟨4, 1, (⊤, (0, 0))⟩] : List (Rec ℕ ℚ)))
    [(2, 5), (7, 6)] = [5, 0, 6] := by decide +kernel

/-! ## C199: event studies of levels -/

section Event
variable [Fintype ι] [Field K] [LinearOrder K] [IsStrictOrderedRing K]

lemma eventLevel_add (w D f g : ι → K) : eventLevel w D (fun i => f i + g i) = eventLevel w D f + eventLevel w D g := by
  unfold eventLevel
  have e1 : ∑ i, w i * D i * (f i + g i) = ∑ i, w i * D i * f i + ∑ i, w i * D i * g i := by
    rw [← Finset.sum_add_distrib]; exact Finset.sum_congr rfl fun i _ => by ring
  have e2 : ∑ j with controlB D j = true, w j * (f j + g j) =
      ∑ j with controlB D j = true, w j * f j + ∑ j with controlB D j = true, w j * g j := by
    rw [← Finset.sum_add_distrib]; exact Finset.sum_congr rfl fun i _ => by ring
  rw [e1, e2, ← Finset.sum_mul, ← Finset.sum_mul, ← Finset.sum_mul]
  ring

/-- C199 (violated).  The event-study level of a cell in a distributed run is the single-machine value plus the dose-weighted
difference between the cohort's and the comparison units' outcomes in the base period. -/
theorem C199_level_violated (D yPost yPre : ι → K) (hD : ∀ i, 0 ≤ D i) (ht : ∃ i, 0 < D i) :
    distEventLevel (fun _ => 1) D yPost yPre = localEventLevel (fun _ => 1) D yPost yPre +
      ((∑ i with treatedB D i = true, D i * yPre i) / (∑ i with treatedB D i = true, D i) - meanOver (controlB D) yPre) := by
  rw [← C105_dose_weighted_violated D yPre hD ht]
  unfold distEventLevel localEventLevel
  rw [← eventLevel_add]
  congr 1
  funext i
  ring

/-- C199 (violated).  Shifting the outcomes of the treated units by a constant in both periods does not change the single-machine value
but shifts the distributed one by that constant. -/
theorem C199_fixed_effect_violated (D yPost yPre : ι → K) (c : K) (hD : ∀ i, 0 ≤ D i) (ht : ∃ i, 0 < D i) :
    localEventLevel (fun _ => 1) D (fun i => yPost i + if 0 < D i then c else 0) (fun i => yPre i + if 0 < D i then c else 0) =
      localEventLevel (fun _ => 1) D yPost yPre ∧
    distEventLevel (fun _ => 1) D (fun i => yPost i + if 0 < D i then c else 0) (fun i => yPre i + if 0 < D i then c else 0) =
      distEventLevel (fun _ => 1) D yPost yPre + c := by
  constructor
  · unfold localEventLevel
    congr 1
    funext i
    ring
  · unfold distEventLevel
    rw [eventLevel_add, C105_dose_weighted_violated D (fun i => if 0 < D i then c else 0) hD ht]
    have h0 : meanOver (controlB D) (fun i => if 0 < D i then c else 0) = 0 := by
      unfold meanOver
      rw [Finset.sum_eq_zero, zero_div]
      intro i hi
      have : D i = 0 := by simpa [controlB] using (Finset.mem_filter.1 hi).2
      rw [this, if_neg (lt_irrefl _)]
    have h1 : ∑ i with treatedB D i = true, D i * (if 0 < D i then c else 0) = (∑ i with treatedB D i = true, D i) * c := by
      rw [Finset.sum_mul]
      refine Finset.sum_congr rfl fun i hi => ?_
      have : 0 < D i := by simpa [treatedB] using (Finset.mem_filter.1 hi).2
      rw [if_pos this]
    have h2 : (∑ i with treatedB D i = true, D i) ≠ 0 := by
      obtain ⟨i, hi⟩ := ht
      apply ne_of_gt
      exact Finset.sum_pos (fun j hj => by simpa [treatedB] using (Finset.mem_filter.1 hj).2)
        ⟨i, Finset.mem_filter.2 ⟨Finset.mem_univ _, by simpa [treatedB] using hi⟩⟩
    rw [h0, h1, mul_div_cancel_left₀ _ h2, sub_zero]

/-- C199.  The two agree exactly if the base-period outcomes of cohort (weighted by dose) and comparison units have the same mean. -/
theorem C199_agree_iff (D yPost yPre : ι → K) (hD : ∀ i, 0 ≤ D i) (ht : ∃ i, 0 < D i) :
    distEventLevel (fun _ => 1) D yPost yPre = localEventLevel (fun _ => 1) D yPost yPre ↔
      (∑ i with treatedB D i = true, D i * yPre i) / (∑ i with treatedB D i = true, D i) = meanOver (controlB D) yPre := by
  rw [C199_level_violated D yPost yPre hD ht, add_eq_left, sub_eq_zero]

/-- Nothing happens between the two periods: the single-machine value is 0, the distributed one is 9. -/
example : localEventLevel (fun _ => 1) (![0, 1, 2] : Fin 3 → ℚ) ![1, 10, 10] ![1, 10, 10] = 0 ∧
    distEventLevel (fun _ => 1) (![0, 1, 2] : Fin 3 → ℚ) ![1, 10, 10] ![1, 10, 10] = 9 := by decide +kernel

end Event

end Verif.Cont
